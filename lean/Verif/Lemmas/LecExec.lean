import Verif.Lemmas.LecBuild

/-!
# Executing the code of a tree gives the value of the tree

The executor looks at the whole stack when a function is called, so the proof follows what lies below.
-/
namespace Iode.Lec

variable {F : Type}

/-- The expression has a value at `t` and this is a number. -/
def NumAt (A : Arith F) (E : Env F) (t : Int) (e : Expr) : Prop :=
  ∃ v, eval A E e t = some v ∧ A.isNum v = true

/-- Expressions without ordinary functions or signs (outside of the time functions). -/
inductive Plain : Expr → Prop where
  | cst (k) : Plain (.cst k)
  | val (v) : Plain (.val v)
  | var (x l p) : Plain (.var x l p)
  | coef (x) : Plain (.coef x)
  | par {e} : Plain e → Plain (.par e)
  | bin (o) {a b} : Plain a → Plain b → Plain (.bin o a b)
  | tfn (f) {opts body} : (∀ a ∈ opts, Plain a) → Plain (.app (.tfn f) (opts ++ [body]))

mutual
/-- The coefficients of an expression. -/
def coefs : Expr → List Name
  | .coef x => [x]
  | .par e => coefs e
  | .bin _ a b => coefs a ++ coefs b
  | .app _ args => coefsL args
  | _ => []
/-- The coefficients of a list of expressions. -/
def coefsL : List Expr → List Name
  | [] => []
  | e :: es => coefs e ++ coefsL es
end

theorem coefsL_mem {x : Name} : ∀ {es : List Expr}, x ∈ coefsL es ↔ ∃ e ∈ es, x ∈ coefs e
  | [] => by simp [coefsL]
  | e :: es => by simp [coefsL, coefsL_mem (es := es)]

/-- Expressions the executor gets right at `t`.  `c` says that everything below on the stack is a
number.  No `lcount`, no function of several expressions; the arguments in front of the expression
of a time function, and those of the functions that accept NA, must come out right even if something
below is NA: they contain no function call, or there is no NA below. -/
inductive Fine (A : Arith F) (E : Env F) : Prop → Expr → Int → Prop where
  | cst (c k t) : Fine A E c (.cst k) t
  | val (c v t) : Fine A E c (.val v) t
  | var (c x l p t) : Fine A E c (.var x l p) t
  | coef (c x t) : Fine A E c (.coef x) t
  | par {c e t} : Fine A E c e t → Fine A E c (.par e) t
  | bin {c o a b t} : Fine A E c a t → Fine A E (c ∧ NumAt A E t a) b t → Fine A E c (.bin o a b) t
  | fn {c f args t} : f ≠ .lcount →
      (∀ pre a post, args = pre ++ a :: post → Fine A E (c ∧ ∀ b ∈ pre, NumAt A E t b) a t) →
      (f.acceptsNa = true → (∀ x ∈ coefsL args, A.isNum (E.coef x) = true) ∧
        ∀ pre a post, args = pre ++ a :: post → Plain a ∨ (c ∧ ∀ b ∈ pre, NumAt A E t b)) →
      Fine A E c (.app (.fn f) args) t
  | tfn {c f opts body t} :
      (∀ pre a post, opts = pre ++ a :: post → Fine A E (c ∧ ∀ b ∈ pre, NumAt A E t b) a t) →
      (∀ pre a post, opts = pre ++ a :: post → Plain a ∨ (c ∧ ∀ b ∈ pre, NumAt A E t b)) →
      (∀ u, Fine A E True body u) → Fine A E c (.app (.tfn f) (opts ++ [body])) t

/-- Everything on the stack is a number. -/
def AllNum (A : Arith F) (S : List F) : Prop := ∀ x ∈ S, A.isNum x = true

theorem exec_append (A : Arith F) (E : Env F) (l : Bool) (c d : List Instr) (t : Int) : ∀ S,
    exec A E l (c ++ d) t S = (exec A E l c t S).bind fun o =>
      match o with
      | some s => exec A E l d t s
      | none => .ok none := by
  induction c with
  | nil => intro S; simp [exec, Res.bind]
  | cons i c ih =>
    intro S
    rw [List.cons_append, exec, exec]
    cases execI A E l i t S with
    | ok o =>
      cases o with
      | some s => simp only [Res.bind]; rw [ih]; rfl
      | none => rfl
    | err => rfl
    | ub => rfl

theorem exec_single (A : Arith F) (E : Env F) (l : Bool) (i : Instr) (t : Int) (S) :
    exec A E l [i] t S = execI A E l i t S := by
  rw [exec]
  cases execI A E l i t S with
  | ok o => cases o <;> simp [Res.bind, exec]
  | err => rfl
  | ub => rfl

/-- Outcome of the code of `e` at `t` on the stack `S`, when the value is `v`. -/
def Outcome (A : Arith F) (E : Env F) (e : Expr) (t : Int) (v : F) (S : List F) : Prop :=
  (∃ w, exec A E true (codeOf e) t S = .ok (some (w :: S)) ∧ (Plain e ∨ AllNum A S → w = v)) ∨
  (exec A E true (codeOf e) t S = .ok none ∧ v = A.na ∧ ∃ x ∈ coefs e, A.isNum (E.coef x) = false)

/-- The same for a list of arguments. -/
def OutcomeL (A : Arith F) (E : Env F) (args : List Expr) (t : Int) (vs : List F) (S : List F)
    (exact : Prop) : Prop :=
  (∃ ws, exec A E true (codeL args) t S = .ok (some (ws.reverse ++ S)) ∧ ws.length = args.length ∧
    (AllNum A S → (AllNum A ws ∨ AllNum A vs) → ws = vs) ∧ (exact → ws = vs)) ∨
  (exec A E true (codeL args) t S = .ok none ∧ A.na ∈ vs ∧ ∃ x ∈ coefsL args, A.isNum (E.coef x) = false)

theorem allSome_cons {o : Option F} {os : List (Option F)} {vs : List F}
    (h : allSome (o :: os) = some vs) : ∃ v vs', o = some v ∧ allSome os = some vs' ∧ vs = v :: vs' := by
  cases o with
  | none => simp [allSome] at h
  | some v =>
    simp only [allSome, Option.map_eq_some_iff] at h
    obtain ⟨vs', h1, h2⟩ := h
    exact ⟨v, vs', rfl, h1, h2.symm⟩

theorem allSome_length {os : List (Option F)} : ∀ {vs : List F}, allSome os = some vs → vs.length = os.length := by
  induction os with
  | nil => intro vs h; simp [allSome] at h; simp [← h]
  | cons o os ih =>
    intro vs h
    obtain ⟨v, vs', _, h1, rfl⟩ := allSome_cons h
    simp [ih h1]

theorem outcomeL (A : Arith F) (E : Env F) (t : Int) : ∀ (args : List Expr) (c : Prop) (exact : Prop)
    (vs : List F) (S : List F),
    (∀ pre a post, args = pre ++ a :: post → ∀ v, eval A E a t = some v → ∀ S,
      ((c ∧ ∀ b ∈ pre, NumAt A E t b) → AllNum A S) → Outcome A E a t v S) →
    (exact → ∀ pre a post, args = pre ++ a :: post → Plain a ∨ (c ∧ ∀ b ∈ pre, NumAt A E t b)) →
    allSome (args.map (fun e => eval A E e t)) = some vs → (c → AllNum A S) →
    OutcomeL A E args t vs S exact
  | [], c, exact, vs, S, _, _, hv, _ => by
    simp only [List.map_nil, allSome, Option.some.injEq] at hv
    subst hv
    exact .inl ⟨[], by simp [codeL, exec], rfl, fun _ _ => rfl, fun _ => rfl⟩
  | a :: as, c, exact, vs, S, hr, hex, hv, hS => by
    obtain ⟨v, vs', h1, h2, rfl⟩ := allSome_cons hv
    rcases hr [] a as rfl v h1 S (fun h => hS h.1) with ⟨w, hw, hwv⟩ | ⟨hn, hna, x, hx, hxn⟩
    · have ih := outcomeL A E t as (c ∧ NumAt A E t a) exact vs' (w :: S)
        (fun pre b post hb v hv S' hS' => by
          refine hr (a :: pre) b post (by simp [hb]) v hv S' (fun h => hS' ⟨⟨h.1, h.2 a (by simp)⟩, ?_⟩)
          exact fun x hx => h.2 x (by simp [hx]))
        (fun he pre b post hb => by
          rcases hex he (a :: pre) b post (by simp [hb]) with h | h
          · exact .inl h
          · exact .inr ⟨⟨h.1, h.2 a (by simp)⟩, fun x hx => h.2 x (by simp [hx])⟩)
        h2 (fun h => by
          have hSn := hS h.1
          obtain ⟨v', hv', hvn⟩ := h.2
          have h1' : eval A E a t = some v := h1
          rw [h1'] at hv'
          cases hv'
          have := hwv (.inr hSn)
          subst this
          intro x hx
          rcases List.mem_cons.1 hx with rfl | hx
          · exact hvn
          · exact hSn x hx)
      rcases ih with ⟨ws, hws, hlen, hq, hqe⟩ | ⟨hn, hna, x, hx, hxn⟩
      · refine .inl ⟨w :: ws, ?_, by simp [hlen], ?_, ?_⟩
        · rw [codeL, exec_append, hw]
          simp only [Res.bind]
          rw [hws]
          simp
        · intro hSn hor
          have hwv' := hwv (.inr hSn)
          subst hwv'
          have hwn : A.isNum w = true := by
            rcases hor with h | h <;> exact h w (by simp)
          rw [hq]
          · intro x hx
            rcases List.mem_cons.1 hx with rfl | hx
            · exact hwn
            · exact hSn x hx
          · rcases hor with h | h
            · exact .inl fun x hx => h x (by simp [hx])
            · exact .inr fun x hx => h x (by simp [hx])
        · intro he
          have hwv' : w = v := by
            apply hwv
            rcases hex he [] a as rfl with h | h
            · exact .inl h
            · exact .inr (hS h.1)
          rw [hwv', hqe he]
      · refine .inr ⟨?_, by simp [hna], x, by simp [coefsL, hx], hxn⟩
        rw [codeL, exec_append, hw]
        exact hn
    · refine .inr ⟨?_, by simp [hna], x, by simp [coefsL, hx], hxn⟩
      rw [codeL, exec_append, hn]
      rfl

/-! ## Time functions -/

/-- The executed body agrees with the value of the expression. -/
def Agrees (body : Int → Option F) (run : Int → Res F) : Prop := ∀ u v, body u = some v → run u = .ok v

theorem foldBody_eq {S : Type} (A : Arith F) {body : Int → Option F} {run : Int → Res F}
    (h : Agrees body run) (f : S → F → S) : ∀ (js : List Int) (acc : S) (r : Option S),
    foldVals A f (js.map body) acc = some r → foldBody A run f js acc = .ok r
  | [], acc, r, hr => by
    simp only [List.map_nil, foldVals, Option.some.injEq] at hr
    simp [foldBody, hr]
  | j :: js, acc, r, hr => by
    rw [List.map_cons] at hr
    cases hb : body j with
    | none => simp [hb, foldVals] at hr
    | some v =>
      rw [hb, foldVals] at hr
      rw [foldBody, h j v hb, Res.bind]
      split at hr
      · rename_i hn
        rw [if_pos hn]
        exact foldBody_eq A h f js _ r hr
      · rename_i hn
        rw [if_neg hn]
        simp only [Option.some.injEq] at hr
        rw [hr]

theorem lastObs_eq (A : Arith F) {body : Int → Option F} {run : Int → Res F} (h : Agrees body run) :
    ∀ (js : List Int) (v : F), rangeVal.last A (js.map body) = some v → lastObs A run js = .ok v
  | [], v, hr => by
    simp only [List.map_nil, rangeVal.last, Option.some.injEq] at hr
    simp [lastObs, hr]
  | j :: js, v, hr => by
    rw [List.map_cons] at hr
    cases hb : body j with
    | none => simp [hb, rangeVal.last] at hr
    | some u =>
      rw [hb, rangeVal.last] at hr
      rw [lastObs, h j u hb, Res.bind]
      split at hr
      · rename_i hn
        rw [if_pos hn]
        simpa using hr
      · rename_i hn
        rw [if_neg hn]
        exact lastObs_eq A h js v hr

theorem twoPoints_eq (A : Arith F) {body : Int → Option F} {run : Int → Res F} (h : Agrees body run)
    (t lag : Int) (k : F → F → F) (v : F) (hv : lagVal.two A body t lag k = some v) :
    twoPoints A run t lag k = .ok v := by
  unfold lagVal.two at hv
  cases hb : body t with
  | none => simp [hb] at hv
  | some v1 =>
    rw [hb] at hv
    dsimp only at hv
    rw [twoPoints, h t v1 hb, Res.bind]
    split at hv
    · rename_i hn
      rw [if_pos hn]
      cases hb2 : body (t - lag) with
      | none => simp [hb2] at hv
      | some v2 =>
        rw [hb2] at hv
        rw [h _ v2 hb2, Res.bind]
        simp only [Option.some.injEq] at hv
        rw [← hv]
        split <;> rfl
    · rename_i hn
      rw [if_neg hn]
      simpa using hv

theorem orNa_eq {S : Type} (A : Arith F) {body : Int → Option F} {run : Int → Res F}
    (h : Agrees body run) (f : S → F → S) (js : List Int) (acc : S) (k : S → F) (v : F)
    (hv : ((foldVals A f (js.map body) acc).map fun o =>
      match o with
      | some s => k s
      | none => A.na) = some v) : orNa A (foldBody A run f js acc) k = .ok v := by
  rw [Option.map_eq_some_iff] at hv
  obtain ⟨r, h1, h2⟩ := hv
  rw [foldBody_eq A h f js acc r h1, orNa, Res.bind]
  cases r with
  | some s => simpa using h2
  | none => simpa using h2

theorem lagFn_eq (A : Arith F) {body : Int → Option F} {run : Int → Res F} (h : Agrees body run)
    (f : TFn) (t lag : Int) (v : F) (hv : lagVal A f body t lag = some v) :
    lagFn A f run t lag = .ok v := by
  cases f with
  | lag => exact h _ _ hv
  | diff => exact twoPoints_eq A h t lag _ v hv
  | rapp => exact twoPoints_eq A h t lag _ v hv
  | dln => exact twoPoints_eq A h t lag _ v hv
  | grt =>
    simp only [lagVal, Option.map_eq_some_iff] at hv
    obtain ⟨r, h1, h2⟩ := hv
    have h1 := twoPoints_eq A h t lag (fun a b => A.divide a b) r h1
    rw [lagFn]
    rw [show twoPoints A run t lag A.divide = .ok r from h1]
    simp [Res.bind, h2]
  | mavg => exact orNa_eq A h A.add _ _ _ v hv
  | _ => simp [lagVal] at hv

theorem best_eq (A : Arith F) {body : Int → Option F} {run : Int → Res F} (h : Agrees body run)
    (a b : Int) (better : F → F → Bool) (v : F) (hv : rangeVal.best A body a b better = some v) :
    ((run a).bind fun v =>
      if A.isNum v then
        orNa A (foldBody A run (fun m x => if better m x then x else m) (upTo (a + 1) b) v) id
      else .ok A.na) = .ok v := by
  unfold rangeVal.best at hv
  cases hb : body a with
  | none => simp [hb] at hv
  | some u =>
    rw [hb] at hv
    dsimp only at hv
    rw [h a u hb, Res.bind]
    split at hv
    · rename_i hn
      rw [if_pos hn]
      exact orNa_eq A h _ _ _ id v hv
    · rename_i hn
      rw [if_neg hn]
      simpa using hv

theorem rangeFn_eq (A : Arith F) {body : Int → Option F} {run : Int → Res F} (h : Agrees body run)
    (f : TFn) (a b : Int) (v : F) (hv : rangeVal A f body a b = some v) :
    rangeFn A f run a b = .ok v := by
  cases f with
  | sum => exact orNa_eq A h _ _ _ _ v hv
  | prod => exact orNa_eq A h _ _ _ _ v hv
  | mean => exact orNa_eq A h _ _ _ _ v hv
  | stderr =>
    rw [rangeVal] at hv
    refine orNa_eq A h _ _ _ _ v ?_
    rw [← hv]
    congr 1
    funext o
    cases o <;> rfl
  | vmax => exact best_eq A h a b _ v hv
  | vmin => exact best_eq A h a b _ v hv
  | lastobs =>
    rw [rangeVal] at hv
    exact lastObs_eq A h _ v hv
  | _ => simp [rangeVal] at hv

theorem orderRange_eq (a b : Int) : orderRange a b = (min a b, max a b) := by
  unfold orderRange
  split <;> simp <;> omega

theorem execTfn_eq (A : Arith F) {body : Int → Option F} {run : Int → Res F} (h : Agrees body run)
    (f : TFn) (opts : List F) (t : Int) (S : List F) (v : F) (hv : tfnVal A f opts body t = some v) :
    execTfn A f (opts.length + 1) run t (opts.reverse ++ S) = .ok (v :: S) := by
  unfold tfnVal at hv
  split at hv
  · split at hv
    · rename_i hl
      rw [execTfn, if_pos hl]
      match opts, hv with
      | [], hv =>
        simp only [List.length_nil, popLag]
        rw [if_neg (by omega)]
        simp only [Res.bind, List.reverse_nil, List.nil_append]
        rw [lagFn_eq A h f t 1 v hv]
      | [x], hv =>
        simp only [Option.bind_eq_some_iff] at hv
        obtain ⟨l, hl1, hl2⟩ := hv
        simp only [List.length_singleton, popLag, if_true, List.reverse_singleton, List.singleton_append, hl1,
          Res.bind]
        rw [lagFn_eq A h f t l v hl2]
    · rename_i hl
      rw [execTfn, if_neg hl]
      match opts, hv with
      | [], hv =>
        simp only [List.length_nil, popRange]
        rw [if_pos (by rfl)]
        simp only [Res.bind, List.reverse_nil, List.nil_append]
        rw [rangeFn_eq A h f 0 t v hv]
      | [x], hv =>
        simp only [Option.bind_eq_some_iff] at hv
        obtain ⟨l, hl1, hl2⟩ := hv
        simp only [List.length_singleton, popRange]
        rw [if_neg (by omega), if_neg (by omega)]
        simp only [List.reverse_singleton, List.singleton_append, popPos, hl1, Res.bind, orderRange_eq]
        rw [rangeFn_eq A h f _ _ v hl2]
      | [x, y], hv =>
        simp only [Option.bind_eq_some_iff] at hv
        obtain ⟨l, hl1, m, hm1, hm2⟩ := hv
        simp only [List.length_cons, List.length_nil, popRange]
        rw [if_neg (by omega), if_pos (by rfl)]
        simp only [List.reverse_cons, List.reverse_nil, List.nil_append, List.cons_append, popPos, hl1, hm1,
          Res.bind, orderRange_eq]
        rw [rangeFn_eq A h f _ _ v hm2]
  · cases hv

/-! ## The main lemma -/

theorem fnRev_accepts (A : Arith F) (f : Fn) (hf : f.acceptsNa = true) (hl : f ≠ .lcount) (ws vs : List F)
    (hlen : ws.length = vs.length) (u : F) (h : A.fnRev f vs.reverse = .ok u) :
    ∃ w, A.fnRev f ws.reverse = .ok w := by
  have hr : ws.reverse.length = vs.reverse.length := by simp [hlen]
  generalize ws.reverse = ws' at *
  generalize vs.reverse = vs' at *
  cases f with
  | «if» =>
    match vs', h with
    | _ :: _ :: _ :: _, _ =>
      match ws', hr with
      | _ :: _ :: _ :: _, _ => exact ⟨_, rfl⟩
  | fnisan =>
    match vs', h with
    | _ :: _, _ =>
      match ws', hr with
      | _ :: _, _ => exact ⟨_, rfl⟩
  | lmean => exact ⟨_, rfl⟩
  | lstderr => exact ⟨_, rfl⟩
  | lcount => exact absurd rfl hl
  | _ => cases hf

theorem all_eq_allNum (A : Arith F) (vs : List F) : vs.all A.isNum = true ↔ AllNum A vs := by
  simp [AllNum]

theorem any_eq_false (A : Arith F) (S : List F) : S.any (fun x => !A.isNum x) = false ↔ AllNum A S := by
  simp [AllNum]

theorem allNum_append {A : Arith F} {a b : List F} : AllNum A (a ++ b) ↔ AllNum A a ∧ AllNum A b := by
  unfold AllNum
  constructor
  · intro h
    exact ⟨fun x hx => h x (by simp [hx]), fun x hx => h x (by simp [hx])⟩
  · rintro ⟨h1, h2⟩ x hx
    rcases List.mem_append.1 hx with h | h
    · exact h1 x h
    · exact h2 x h

theorem allNum_reverse {A : Arith F} {a : List F} : AllNum A a.reverse ↔ AllNum A a := by
  simp [AllNum]

theorem execFn_eq (A : Arith F) (f : Fn) (hl : f ≠ .lcount) (ws vs S : List F) (v : F)
    (hlen : ws.length = vs.length) (hv : fnVal A f vs = some v)
    (hq : AllNum A S → (AllNum A ws ∨ AllNum A vs) → ws = vs) (hqe : f.acceptsNa = true → ws = vs) :
    ∃ w, execFn A f ws.length (ws.reverse ++ S) = .ok (w :: S) ∧ (AllNum A S → w = v) := by
  have hdrop : (ws.reverse ++ S).drop ws.length = S := by
    rw [List.drop_append_of_le_length (by simp), List.drop_of_length_le (by simp)]; rfl
  have htake : (ws.reverse ++ S).take ws.length = ws.reverse := by
    rw [List.take_append_of_le_length (by simp), List.take_of_length_le (by simp)]
  have hlt : ¬ (ws.reverse ++ S).length < ws.length := by simp
  unfold fnVal at hv
  rw [if_neg hl] at hv
  unfold execFn
  rw [hdrop, htake]
  by_cases ha : f.acceptsNa = true
  · obtain rfl := hqe ha
    rw [if_neg (by simp [ha]), if_neg hl, if_neg hlt]
    rw [if_pos (by simp [ha])] at hv
    cases hr : A.fnRev f ws.reverse with
    | ok w =>
      rw [hr] at hv
      simp only [Option.some.injEq] at hv
      exact ⟨w, by simp [Res.bind], fun _ => hv⟩
    | err => simp [hr] at hv
    | ub => simp [hr] at hv
  · have ha' : f.acceptsNa = false := by simpa using ha
    cases hany : (ws.reverse ++ S).any (fun x => !A.isNum x) with
    | true =>
      rw [if_pos (by simp [ha']), if_neg hlt]
      refine ⟨A.na, rfl, fun hS => ?_⟩
      have : ¬ AllNum A vs := by
        intro hvs
        have := hq hS (.inr hvs)
        subst this
        have : AllNum A (ws.reverse ++ S) := allNum_append.2 ⟨allNum_reverse.2 hvs, hS⟩
        rw [← any_eq_false, hany] at this
        cases this
      rw [if_neg (by rw [ha', Bool.false_or, all_eq_allNum]; exact this)] at hv
      simpa using hv
    | false =>
      rw [if_neg (by simp [ha']), if_neg hl, if_neg hlt]
      have hall := (any_eq_false A _).1 hany
      obtain ⟨h1, hS⟩ := allNum_append.1 hall
      have h1 := allNum_reverse.1 h1
      have := hq hS (.inl h1)
      subst this
      rw [if_pos (by rw [(all_eq_allNum A ws).2 h1]; simp)] at hv
      cases hr : A.fnRev f ws.reverse with
      | ok w =>
        rw [hr] at hv
        simp only [Option.some.injEq] at hv
        exact ⟨w, by simp [Res.bind], fun _ => hv⟩
      | err => simp [hr] at hv
      | ub => simp [hr] at hv

theorem Plain.not_fn {f : Fn} {args : List Expr} (h : Plain (.app (.fn f) args)) : False := by
  generalize he : Expr.app (.fn f) args = e at h
  cases h <;> cases he

theorem Fine.outcome {A : Arith F} {E : Env F} (hna : A.isNum A.na = false) {c : Prop} {e : Expr} {t : Int}
    (h : Fine A E c e t) : ∀ v, eval A E e t = some v → ∀ S, (c → AllNum A S) → Outcome A E e t v S := by
  induction h with
  | cst c k t =>
    intro v hv S _
    refine .inl ⟨v, ?_, fun _ => rfl⟩
    rw [codeOf, exec_single, execI]
    cases k <;> (rw [eval] at hv; cases hv; rfl)
  | val c k t =>
    intro v hv S _
    refine .inl ⟨v, ?_, fun _ => rfl⟩
    rw [codeOf, exec_single, execI]
    rw [eval] at hv; cases hv; rfl
  | var c x l p t =>
    intro v hv S _
    refine .inl ⟨v, ?_, fun _ => rfl⟩
    rw [codeOf, exec_single, execI]
    cases p with
    | none => rw [eval] at hv; cases hv; simp only [varPos, Int.add_comm]
    | some p => rw [eval] at hv; cases hv; simp only [varPos, Int.add_comm]
  | coef c x t =>
    intro v hv S _
    rw [eval] at hv
    cases hn : A.isNum (E.coef x) with
    | true =>
      refine .inl ⟨v, ?_, fun _ => rfl⟩
      rw [codeOf, exec_single, execI, if_pos hn]
      rw [if_pos hn] at hv
      cases hv; rfl
    | false =>
      refine .inr ⟨?_, ?_, x, by simp [coefs], hn⟩
      · rw [codeOf, exec_single, execI, if_neg (by simp [hn])]
      · rw [if_neg (by simp [hn])] at hv
        cases hv; rfl
  | par _ ih =>
    intro v hv S hS
    rw [eval] at hv
    rcases ih v hv S hS with ⟨w, h1, h2⟩ | ⟨h1, h2, h3⟩
    · refine .inl ⟨w, by rw [codeOf]; exact h1, fun hp => h2 ?_⟩
      rcases hp with hp | hp
      · cases hp with | par h => exact .inl h
      · exact .inr hp
    · exact .inr ⟨by rw [codeOf]; exact h1, h2, by rw [coefs]; exact h3⟩
  | @bin c o a b t _ _ iha ihb =>
    intro v hv S hS
    rw [eval] at hv
    cases h1 : eval A E a t with
    | none => simp [h1] at hv
    | some x =>
      cases h2 : eval A E b t with
      | none => simp [h1, h2] at hv
      | some y =>
        simp only [h1, h2, Option.some.injEq] at hv
        have hcode : codeOf (.bin o a b) = codeOf a ++ (codeOf b ++ [.op o]) := by rw [codeOf]
        rcases iha x h1 S hS with ⟨w1, e1, q1⟩ | ⟨e1, rfl, z, hz, hzn⟩
        · have hS2 : c ∧ NumAt A E t a → AllNum A (w1 :: S) := by
            rintro ⟨hc, x', hx', hxn⟩
            rw [h1] at hx'
            cases hx'
            have := q1 (.inr (hS hc))
            subst this
            intro z hz
            rcases List.mem_cons.1 hz with rfl | hz
            · exact hxn
            · exact hS hc z hz
          rcases ihb y h2 (w1 :: S) hS2 with ⟨w2, e2, q2⟩ | ⟨e2, rfl, z, hz, hzn⟩
          · refine .inl ⟨A.opSafe o w1 w2, ?_, ?_⟩
            · rw [hcode, exec_append, e1]
              simp only [Res.bind]
              rw [exec_append, e2]
              simp only [Res.bind]
              rw [exec_single, execI, execOp, cont, Res.bind]
            · intro hp
              have hw1 : w1 = x := by
                apply q1
                rcases hp with hp | hp
                · cases hp with | bin _ h _ => exact .inl h
                · exact .inr hp
              subst hw1
              rw [← hv, Arith.opSafe]
              cases hn1 : A.isNum w1 with
              | false => simp
              | true =>
                have hw2 : w2 = y := by
                  apply q2
                  rcases hp with hp | hp
                  · cases hp with | bin _ _ h => exact .inl h
                  · refine .inr fun z hz => ?_
                    rcases List.mem_cons.1 hz with rfl | hz
                    · exact hn1
                    · exact hp z hz
                subst hw2
                cases A.isNum w2 <;> simp
          · refine .inr ⟨?_, ?_, z, by simp [coefs, hz], hzn⟩
            · rw [hcode, exec_append, e1]
              simp only [Res.bind]
              rw [exec_append, e2]
              rfl
            · rw [← hv]; simp [hna]
        · refine .inr ⟨?_, ?_, z, by simp [coefs, hz], hzn⟩
          · rw [hcode, exec_append, e1]; rfl
          · rw [← hv]; simp [hna]
  | @fn c f args t hl _ hacc ih =>
    intro v hv S hS
    rw [eval, evalFs_eq, List.map_map, Option.bind_eq_some_iff] at hv
    obtain ⟨vs, hvs, hv⟩ := hv
    have hvs' : allSome (args.map (fun e => eval A E e t)) = some vs := hvs
    have hlen : vs.length = args.length := by simpa using allSome_length hvs'
    have ho := outcomeL A E t args c (f.acceptsNa = true) vs S ih (fun h => (hacc h).2) hvs' hS
    have hcode : codeOf (.app (.fn f) args) = codeL args ++ [.fn f args.length] := by rw [codeOf]
    rcases ho with ⟨ws, e1, hl1, hq, hqe⟩ | ⟨e1, hmem, x, hx, hxn⟩
    · obtain ⟨w, hw, hwv⟩ := execFn_eq A f hl ws vs S v (by omega) hv hq hqe
      refine .inl ⟨w, ?_, ?_⟩
      · rw [hcode, exec_append, e1]
        simp only [Res.bind]
        rw [exec_single, execI, ← hl1, hw, cont, Res.bind]
      · rintro (hp | hp)
        · exact hp.not_fn.elim
        · exact hwv hp
    · have hacc' : f.acceptsNa = false := by
        cases hf : f.acceptsNa with
        | false => rfl
        | true =>
          have := (hacc hf).1 x hx
          rw [hxn] at this
          cases this
      refine .inr ⟨?_, ?_, x, by rw [coefs]; exact hx, hxn⟩
      · rw [hcode, exec_append, e1]; rfl
      · unfold fnVal at hv
        rw [if_neg hl, if_neg] at hv
        · simpa using hv.symm
        · rw [hacc', Bool.false_or, all_eq_allNum]
          intro hall
          have := hall _ hmem
          rw [hna] at this
          cases this
  | @tfn c f opts body t _ hex _ iho ihb =>
    intro v hv S hS
    rw [eval, evalFs_eq, List.map_append, List.map_singleton, List.reverse_append, List.reverse_singleton,
      List.singleton_append] at hv
    simp only [List.reverse_reverse, List.map_map, Option.bind_eq_some_iff] at hv
    obtain ⟨vs, hvs, hv⟩ := hv
    have hvs' : allSome (opts.map (fun e => eval A E e t)) = some vs := hvs
    have hlen : vs.length = opts.length := by simpa using allSome_length hvs'
    have hnum : AllNum A vs := by
      unfold tfnVal at hv
      split at hv
      · rename_i h; exact (all_eq_allNum A vs).1 h
      · cases hv
    have hag : Agrees (eval A E body) (fun u => result A (exec A E true (codeOf body) u [])) := by
      intro u x hx
      rcases ihb u x hx [] (fun _ => by intro y hy; cases hy) with ⟨w, e1, q⟩ | ⟨e1, rfl, _⟩
      · have := q (.inr (by intro y hy; cases hy))
        subst this
        show result A (Lec.exec A E true (codeOf body) u []) = _
        rw [e1, result]
      · show result A (Lec.exec A E true (codeOf body) u []) = _
        rw [e1, result]
    rcases outcomeL A E t opts c True vs S iho (fun _ => hex) hvs' hS with
      ⟨ws, e1, hl1, _, hq⟩ | ⟨_, hmem, _⟩
    · have := hq trivial
      subst this
      refine .inl ⟨v, ?_, fun _ => rfl⟩
      rw [codeOf_tfn, exec_append, e1]
      simp only [Res.bind]
      rw [exec_single, execI, ← hl1, execTfn_eq A hag f ws t S v hv, cont, Res.bind]
    · have := hnum _ hmem
      rw [hna] at this
      cases this

/-- Executing the code of a tree gives its value. -/
theorem Fine.exec {A : Arith F} {E : Env F} (hna : A.isNum A.na = false) {e : Expr} {t : Int} {v : F}
    (h : Fine A E True e t) (hv : eval A E e t = some v) : execSub A E (codeOf e) t = .ok v := by
  rcases h.outcome hna v hv [] (fun _ => by intro y hy; cases hy) with ⟨w, e1, q⟩ | ⟨e1, rfl, _⟩
  · have := q (.inr (by intro y hy; cases hy))
    subst this
    rw [execSub, e1, result]
  · rw [execSub, e1, result]

end Iode.Lec
