import Verif.Model.LecLink
import Verif.Lemmas.LecNa
import Verif.Lemmas.Names

/-!
# Names of compiled formulas and locality of execution
-/
namespace Iode.Lec

variable {F : Type}

/-! ## Names in the code -/

mutual
/-- The variables and coefficients in an instruction, as tokens. -/
def namesI : Instr → List Tok
  | .var x _ _ => [.var x]
  | .coef x => [.coef x]
  | .tfn _ _ b => namesC b
  | .mtfn _ _ b1 b2 => namesC b1 ++ namesC b2
  | _ => []
/-- The names in a piece of code. -/
def namesC : List Instr → List Tok
  | [] => []
  | i :: is => namesI i ++ namesC is
end

theorem namesC_mem {x : Tok} : ∀ {c : List Instr}, x ∈ namesC c ↔ ∃ i ∈ c, x ∈ namesI i
  | [] => by simp [namesC]
  | i :: is => by simp [namesC, namesC_mem (c := is)]

/-- The variable or coefficient in an element. -/
def atomName : Atom → Option Tok
  | .var x _ _ => some (.var x)
  | .coef x => some (.coef x)
  | _ => none

/-- Tokens that name something. -/
def nameTok : Tok → Option Tok
  | .var x => some (.var x)
  | .coef x => some (.coef x)
  | _ => none

/-- The names of a list of elements are all in `S`. -/
def NamesIn (S : List Tok) (as : List Atom) : Prop := ∀ a ∈ as, ∀ x, atomName a = some x → x ∈ S

theorem NamesIn.append {S : List Tok} {as bs : List Atom} (h1 : NamesIn S as) (h2 : NamesIn S bs) : NamesIn S (as ++ bs) := by
  intro a ha
  rcases List.mem_append.1 ha with h | h
  · exact h1 a h
  · exact h2 a h

theorem NamesIn.one {S : List Tok} {a : Atom} (h : ∀ x, atomName a = some x → x ∈ S) : NamesIn S [a] := by
  intro b hb
  rw [List.mem_singleton.1 hb]
  exact h

theorem NamesIn.mono {S T : List Tok} (hst : ∀ x ∈ S, x ∈ T) {as : List Atom} (h : NamesIn S as) : NamesIn T as :=
  fun a ha x hx => hst x (h a ha x hx)

theorem saveOp_names {S : List Tok} {e : Entry} {rest out out'} (h : NamesIn S out) (he : saveOp e rest out = .ok out') :
    NamesIn S out' := by
  cases e with
  | op o => simp only [saveOp] at he; cases he; exact h.append (.one (by simp [atomName]))
  | openp => simp only [saveOp] at he; cases he; exact h.append (.one (by simp [atomName]))
  | «fun» f n =>
    simp only [saveOp] at he
    split at he
    · cases he; exact h.append (.one (by simp [atomName]))
    · cases he

theorem popWhile_names {S : List Tok} {o : Op} : ∀ {ops out r}, NamesIn S out → popWhile o ops out = .ok r → NamesIn S r.2
  | [], out, r, h, he => by simp only [popWhile] at he; cases he; exact h
  | e :: ops, out, r, h, he => by
    simp only [popWhile] at he
    split at he
    · obtain ⟨o1, h1, h2⟩ := CRes.bind_eq_ok he
      exact popWhile_names (saveOp_names h h1) h2
    · cases he; exact h

theorem closeLoop_names {S : List Tok} : ∀ {ops out r}, NamesIn S out → closeLoop ops out = .ok r → NamesIn S r.2
  | [], out, r, h, he => by simp only [closeLoop] at he; cases he
  | e :: ops, out, r, h, he => by
    cases e with
    | openp => simp only [closeLoop] at he; cases he; exact h.append (.one (by simp [atomName]))
    | op o =>
      simp only [closeLoop] at he
      obtain ⟨o1, h1, h2⟩ := CRes.bind_eq_ok he
      exact closeLoop_names (saveOp_names h h1) h2
    | «fun» f n =>
      simp only [closeLoop] at he
      obtain ⟨o1, h1, h2⟩ := CRes.bind_eq_ok he
      exact closeLoop_names (saveOp_names h h1) h2

theorem flush_names {S : List Tok} : ∀ {ops out r}, NamesIn S out → flush ops out = .ok r → NamesIn S r
  | [], out, r, h, he => by simp only [flush] at he; cases he; exact h
  | e :: ops, out, r, h, he => by
    simp only [flush] at he
    obtain ⟨o1, h1, h2⟩ := CRes.bind_eq_ok he
    exact flush_names (saveOp_names h h1) h2

theorem mapLast_names {S : List Tok} {f : Atom → Atom} (hf : ∀ a, atomName (f a) = atomName a) {st st' : St}
    (h : NamesIn S st.out) (he : mapLast f st = .ok st') : NamesIn S st'.out := by
  unfold mapLast at he
  split at he
  · cases he; exact h
  · split at he
    · cases he
      refine NamesIn.append (fun a ha => h a (List.mem_of_mem_take ha)) ?_
      intro a ha x hx
      obtain ⟨b, hb, rfl⟩ := List.mem_map.1 ha
      rw [hf] at hx
      exact h b (List.mem_of_mem_drop hb) x hx
    · cases he
    · cases he

theorem lagAtom_name (k : Int) (a : Atom) : atomName (lagAtom k a) = atomName a := by
  cases a with
  | var x l p => cases p <;> rfl
  | _ => rfl

theorem dateAtom_name (k : Period) (a : Atom) : atomName (dateAtom k a) = atomName a := by
  cases a with
  | var x l p => cases p <;> rfl
  | _ => rfl

theorem value_names {S : List Tok} {a : Atom} {st st' : St} (h : NamesIn S st.out)
    (ha : ∀ x, atomName a = some x → x ∈ S) (he : value a st = .ok st') : NamesIn S st'.out := by
  unfold value at he
  split at he
  · cases he; exact h.append (.one ha)
  · cases he

theorem pushFun_names {S : List Tok} {f : Fun} {st st' : St} (h : NamesIn S st.out) (he : pushFun f st = .ok st') :
    NamesIn S st'.out := by
  unfold pushFun at he
  split at he
  · cases he; exact h
  · cases he

theorem bracket_names {S : List Tok} {f : Atom → Atom} (hf : ∀ a, atomName (f a) = atomName a) {st st' : St}
    (h : NamesIn S st.out) (he : bracket f st = .ok st') : NamesIn S st'.out := by
  unfold bracket at he
  split at he
  · cases he
  · exact mapLast_names hf h he

theorem step_names {S : List Tok} {st st' : St} {tk : Tok} (h : NamesIn S st.out) (ht : ∀ x, nameTok tk = some x → x ∈ S)
    (he : step st tk = .ok st') : NamesIn S st'.out := by
  cases tk with
  | cst k => exact value_names h (by simp [atomName]) he
  | val k => exact value_names h (by simp [atomName]) he
  | var x => exact value_names h (by simpa [atomName, nameTok] using ht) he
  | coef x => exact value_names h (by simpa [atomName, nameTok] using ht) he
  | op o =>
    simp only [step, operator] at he
    split at he
    · split at he
      · exact pushFun_names h he
      · exact pushFun_names h he
      · cases he
    · obtain ⟨r, h1, h2⟩ := CRes.bind_eq_ok he
      cases h2
      exact popWhile_names h h1
  | «fun» f => exact pushFun_names h he
  | openp =>
    simp only [step, openPar] at he
    split at he
    · cases he; exact h.append (.one (by simp [atomName]))
    · cases he
  | closep =>
    simp only [step, closePar] at he
    split at he
    · cases he
    · obtain ⟨r, h1, h2⟩ := CRes.bind_eq_ok he
      cases h2
      exact closeLoop_names h h1
  | ocpar =>
    simp only [step, openClose] at he
    split at he
    · split at he
      · cases he
      · cases he; exact h
      · cases he
    · cases he
  | comma =>
    simp only [step, commaStep] at he
    split at he
    · cases he
    · obtain ⟨r, h1, h2⟩ := CRes.bind_eq_ok he
      split at h2
      · cases h2
      · cases h2; exact (closeLoop_names h h1).append (.one (by simp [atomName]))
      · cases h2
  | lag k => exact bracket_names (lagAtom_name k) h he
  | date p => exact bracket_names (dateAtom_name p) h he
  | bad => cases he

theorem run_names {S : List Tok} : ∀ {ts : List Tok} {st st' : St}, NamesIn S st.out →
    (∀ x ∈ ts.filterMap nameTok, x ∈ S) → run st ts = .ok st' → NamesIn S st'.out
  | [], st, st', h, _, he => by simp only [run] at he; cases he; exact h
  | tk :: ts, st, st', h, ht, he => by
    simp only [run] at he
    obtain ⟨s1, h1, h2⟩ := CRes.bind_eq_ok he
    refine run_names (step_names h ?_ h1) ?_ h2
    · intro x hx
      exact ht x (by simp [hx])
    · intro x hx
      apply ht
      rw [List.filterMap_cons]
      split
      · exact hx
      · exact List.mem_cons_of_mem _ hx

theorem compile_names {ops : List Entry} {ts : List Tok} {as : List Atom} (h : compile ops ts = .ok as) :
    NamesIn (ts.filterMap nameTok) as := by
  unfold compile at h
  split at h
  · cases h
  · obtain ⟨s1, h1, h2⟩ := CRes.bind_eq_ok h
    have := run_names (S := ts.filterMap nameTok) (by intro a ha; cases ha) (fun _ hx => hx) h1
    unfold finish at h2
    split at h2
    · cases h2
    · split at h2
      · cases h2
      · exact flush_names this h2

/-! ## Names after the second stage -/

theorem takeBack_mem : ∀ {n buf acc r}, takeBack n buf acc = some r →
    (∀ i ∈ r.1, i ∈ buf ∨ i ∈ acc) ∧ (∀ i ∈ r.2, i ∈ buf)
  | 0, buf, acc, r, h => by
    rw [takeBack.eq_def] at h
    cases h
    exact ⟨fun i hi => .inr hi, fun i hi => hi⟩
  | n + 1, [], acc, r, h => by rw [takeBack.eq_def] at h; cases h
  | n + 1, i :: buf, acc, r, h => by
    rw [takeBack.eq_def] at h
    simp only at h
    split at h
    · obtain ⟨h1, h2⟩ := takeBack_mem h
      refine ⟨?_, fun j hj => List.mem_cons_of_mem _ (h2 j hj)⟩
      intro j hj
      rcases h1 j hj with h | h
      · exact .inl (List.mem_cons_of_mem _ h)
      · rcases List.mem_cons.1 h with rfl | h
        · exact .inl List.mem_cons_self
        · exact .inr h
    · cases h
  termination_by _ buf => buf.length

/-- The names of code are all in `S`. -/
def CodeIn (S : List Tok) (c : List Instr) : Prop := ∀ i ∈ c, ∀ x ∈ namesI i, x ∈ S

theorem CodeIn.cons {S : List Tok} {i : Instr} {c : List Instr} (hi : ∀ x ∈ namesI i, x ∈ S) (h : CodeIn S c) :
    CodeIn S (i :: c) := by
  intro j hj
  rcases List.mem_cons.1 hj with rfl | hj
  · exact hi
  · exact h j hj

theorem CodeIn.namesC {S : List Tok} {c : List Instr} (h : CodeIn S c) : ∀ x ∈ namesC c, x ∈ S := by
  intro x hx
  obtain ⟨i, hi, hx⟩ := namesC_mem.1 hx
  exact h i hi x hx

theorem CodeIn.takeBack {S : List Tok} {n : Nat} {buf : List Instr} {r} (h : CodeIn S buf) (hr : takeBack n buf [] = some r) :
    CodeIn S r.1 ∧ CodeIn S r.2 := by
  obtain ⟨h1, h2⟩ := takeBack_mem hr
  refine ⟨fun i hi => ?_, fun i hi => h i (h2 i hi)⟩
  rcases h1 i hi with h' | h'
  · exact h i h'
  · cases h'

theorem buildStep_names {S : List Tok} {seen : List Atom} {buf buf' : List Instr} {a : Atom} (h : CodeIn S buf)
    (ha : ∀ x, atomName a = some x → x ∈ S) (he : buildStep seen buf a = .ok buf') : CodeIn S buf' := by
  have hno : ∀ {i : Instr}, namesI i = [] → ∀ x ∈ namesI i, x ∈ S := by
    intro i hi x hx
    rw [hi] at hx
    cases hx
  cases a with
  | openp => cases he; exact h
  | closep => cases he; exact h
  | cst k => cases he; exact h.cons (hno (by simp [namesI]))
  | val k => cases he; exact h.cons (hno (by simp [namesI]))
  | op k => cases he; exact h.cons (hno (by simp [namesI]))
  | var x l p => cases he; exact h.cons (by simpa [namesI, atomName] using ha)
  | coef x => cases he; exact h.cons (by simpa [namesI, atomName] using ha)
  | «fun» f n =>
    cases f with
    | fn f => cases he; exact h.cons (hno (by simp [namesI]))
    | tfn f =>
      simp only [buildStep] at he
      split at he
      · split at he
        · split at he
          · rename_i r hr
            cases he
            obtain ⟨h1, h2⟩ := h.takeBack hr
            exact h2.cons (by rw [namesI]; exact h1.namesC)
          · cases he
        · cases he
      · cases he
    | mtfn f =>
      simp only [buildStep] at he
      split at he
      · split at he
        · rename_i r hr
          obtain ⟨h1, h2⟩ := h.takeBack hr
          split at he
          · cases he
            refine h2.cons ?_
            rw [namesI]
            intro x hx
            rcases List.mem_append.1 hx with hx | hx
            · exact h1.namesC x hx
            · simp [namesC] at hx
          · split at he
            · split at he
              · rename_i r' hr'
                cases he
                obtain ⟨h3, h4⟩ := h2.takeBack hr'
                refine h4.cons ?_
                rw [namesI]
                intro x hx
                rcases List.mem_append.1 hx with hx | hx
                · exact h3.namesC x hx
                · exact h1.namesC x hx
              · cases he
            · cases he
        · cases he
      · cases he

theorem Res.bindOk {α β : Type} (a : α) (f : α → Res β) : (Res.ok a).bind f = f a := rfl

theorem Res.bind_eq_ok' {α β : Type} {r : Res α} {f : α → Res β} {b : β} (h : r.bind f = .ok b) :
    ∃ a, r = .ok a ∧ f a = .ok b := by
  cases r with
  | ok a => exact ⟨a, rfl, h⟩
  | err => cases h
  | ub => cases h

theorem buildLoop_names {S : List Tok} : ∀ {as seen buf code}, CodeIn S buf → NamesIn S as →
    buildLoop seen buf as = .ok code → CodeIn S code
  | [], seen, buf, code, h, _, he => by
    simp only [buildLoop] at he
    cases he
    intro i hi
    exact h i (by simpa using hi)
  | a :: as, seen, buf, code, h, ha, he => by
    simp only [buildLoop] at he
    obtain ⟨b1, h1, h2⟩ := Res.bind_eq_ok' he
    exact buildLoop_names (buildStep_names h (ha a (by simp)) h1) (fun b hb => ha b (by simp [hb])) h2

theorem build_names {S : List Tok} {as : List Atom} {code : List Instr} (h : NamesIn S as) (he : build as = .ok code) :
    CodeIn S code :=
  buildLoop_names (by intro i hi; cases hi) h he

/-! ## Locality of execution -/

/-- The two environments agree on the names of `S`. -/
structure SameOn (S : List Tok) (E1 E2 : Env F) : Prop where
  nb : E1.nb = E2.nb
  posOf : E1.posOf = E2.posOf
  curt : E1.curt = E2.curt
  var : ∀ x, Tok.var x ∈ S → E1.var x = E2.var x
  coef : ∀ x, Tok.coef x ∈ S → E1.coef x = E2.coef x

theorem SameOn.mono {S T : List Tok} {E1 E2 : Env F} (h : SameOn S E1 E2) (hst : ∀ x ∈ T, x ∈ S) : SameOn T E1 E2 :=
  ⟨h.nb, h.posOf, h.curt, fun x hx => h.var x (hst _ hx), fun x hx => h.coef x (hst _ hx)⟩

mutual
theorem execI_same (A : Arith F) {E1 E2 : Env F} (linked : Bool) (i : Instr) (h : SameOn (namesI i) E1 E2) (t : Int)
    (s : List F) : execI A E1 linked i t s = execI A E2 linked i t s := by
  cases i with
  | cst k => cases k <;> simp only [execI, cstVal, h.posOf]
  | val v => cases v <;> simp only [execI, valVal, h.curt]
  | var x l p =>
    have e : E1.at A x = E2.at A x := by
      funext i
      unfold Env.at
      rw [h.nb, h.var x (by simp [namesI])]
    have e2 : varPos E1 linked l p t = varPos E2 linked l p t := by
      cases p <;> cases linked <;> simp only [varPos, h.posOf]
    simp only [execI, e, e2]
  | coef x => simp only [execI]; rw [h.coef x (by simp [namesI])]
  | op o => simp only [execI]
  | fn f n => simp only [execI]
  | tfn f n b =>
    have : (fun u => result A (exec A E1 linked b u [])) = fun u => result A (exec A E2 linked b u []) := by
      funext u
      rw [exec_same A linked b (by rw [namesI] at h; exact h) u []]
    simp only [execI, this]
  | mtfn f n b1 b2 =>
    rw [namesI] at h
    have e1 : (fun u => result A (exec A E1 false b1 u [])) = fun u => result A (exec A E2 false b1 u []) := by
      funext u
      rw [exec_same A false b1 (h.mono fun x hx => List.mem_append_left _ hx) u []]
    have e2 : (fun u => result A (exec A E1 false b2 u [])) = fun u => result A (exec A E2 false b2 u []) := by
      funext u
      rw [exec_same A false b2 (h.mono fun x hx => List.mem_append_right _ hx) u []]
    simp only [execI, e1, e2]
theorem exec_same (A : Arith F) {E1 E2 : Env F} (linked : Bool) (c : List Instr) (h : SameOn (namesC c) E1 E2) (t : Int)
    (s : List F) : exec A E1 linked c t s = exec A E2 linked c t s := by
  cases c with
  | nil => simp only [exec]
  | cons i is =>
    rw [namesC] at h
    simp only [exec, execI_same A linked i (h.mono fun x hx => List.mem_append_left _ hx) t s]
    congr 1
    funext o
    cases o with
    | none => rfl
    | some s' => exact exec_same A linked is (h.mono fun x hx => List.mem_append_right _ hx) t s'
end

/-! ## The list of names -/

theorem addName_mem {names : List Name} {x y : Name} : y ∈ addName names x ↔ y ∈ names ∨ y = x := by
  unfold addName
  split
  · constructor
    · exact .inl
    · rintro (h | rfl) <;> assumption
  · simp

theorem lnames_mem {ts : List Tok} {x : Name} : x ∈ lnames ts ↔ x ∈ ts.filterMap tokName := by
  have : ∀ (l : List Name) (acc : List Name), x ∈ l.foldl addName acc ↔ x ∈ acc ∨ x ∈ l := by
    intro l
    induction l with
    | nil => simp
    | cons y l ih => intro acc; simp only [List.foldl_cons, ih, addName_mem, List.mem_cons]; rw [or_assoc]
  unfold lnames
  rw [this]
  simp

theorem lnames_nodup (ts : List Tok) : (lnames ts).Nodup := by
  have : ∀ (l acc : List Name), acc.Nodup → (l.foldl addName acc).Nodup := by
    intro l
    induction l with
    | nil => exact fun _ h => h
    | cons y l ih =>
      intro acc h
      refine ih _ ?_
      unfold addName
      split
      · exact h
      · rename_i hn
        rw [List.nodup_append]
        refine ⟨h, by simp, ?_⟩
        intro a ha b hb
        rw [List.mem_singleton.1 hb]
        rintro rfl
        exact hn ha
  exact this _ _ List.nodup_nil

/-! ## Positions -/

theorem indexOf_find {V : Type} (ty : ObjType) (x : Name) : ∀ (m : SMap V),
    (∀ i, indexOf ty m x = some i → ∃ v, m.find (toKey ty x) = some v ∧ m[i]? = some (toKey ty x, v)) ∧
    (indexOf ty m x = none ↔ m.find (toKey ty x) = none)
  | [] => by simp [indexOf, SMap.find]
  | (k, v) :: m => by
    obtain ⟨h1, h2⟩ := indexOf_find ty x m
    unfold indexOf at *
    rw [List.findIdx?_cons, SMap.find]
    by_cases hk : k = toKey ty x
    · subst hk
      simp
    · have hk' : ¬toKey ty x = k := fun h => hk h.symm
      simp only [hk, decide_false, Bool.false_eq_true, if_false, hk', Option.map_eq_some_iff, Option.map_eq_none_iff]
      refine ⟨?_, h2⟩
      rintro i ⟨j, hj, rfl⟩
      obtain ⟨w, hw1, hw2⟩ := h1 j hj
      exact ⟨w, hw1, by simpa using hw2⟩

theorem objAt_indexOf {V : Type} (ty : ObjType) (m : SMap V) (x : Name) {i : Nat} (h : indexOf ty m x = some i) :
    objAt ty m i = m.find (toKey ty x) := by
  obtain ⟨v, h1, h2⟩ := (indexOf_find ty x m).1 i h
  simp only [objAt, h2, toKey_idem, h1]

/-- Names found by linking. -/
theorem linkNames_ok {w : Ws F} : ∀ {names poss}, linkNames w names = .ok poss →
    ∀ x ∈ names, ∃ q, execPos names poss x = some q ∧ linkName w x = some q
  | [], _, _, x, hx => by cases hx
  | y :: ys, poss, h, x, hx => by
    simp only [linkNames] at h
    cases hy : linkName w y with
    | none => rw [hy] at h; cases h
    | some i =>
      rw [hy] at h
      obtain ⟨is, h1, h2⟩ := Res.bind_eq_ok' h
      cases h2
      by_cases hxy : y = x
      · subst hxy
        exact ⟨i, by simp [execPos, List.findIdx?_cons], hy⟩
      · have hx' : x ∈ ys := by
          rcases List.mem_cons.1 hx with rfl | h
          · exact absurd rfl hxy
          · exact h
        obtain ⟨q, hq1, hq2⟩ := linkNames_ok h1 x hx'
        refine ⟨q, ?_, hq2⟩
        unfold execPos at hq1 ⊢
        rw [List.findIdx?_cons]
        simp only [hxy, decide_false, Bool.false_eq_true, if_false]
        cases hf : ys.findIdx? (fun z => decide (z = x)) with
        | none => rw [hf] at hq1; cases hq1
        | some k => rw [hf] at hq1; simpa using hq1

theorem linkNames_iff {w : Ws F} {names : List Name} :
    (∃ poss, linkNames w names = .ok poss) ↔ ∀ x ∈ names, (linkName w x).isSome = true := by
  induction names with
  | nil => simp [linkNames]
  | cons y ys ih =>
    simp only [linkNames, List.mem_cons, forall_eq_or_imp]
    cases hy : linkName w y with
    | none => simp
    | some i =>
      simp only [Option.isSome_some, true_and]
      rw [← ih]
      constructor
      · rintro ⟨p, hp⟩
        obtain ⟨is, h1, _⟩ := Res.bind_eq_ok' hp
        exact ⟨is, h1⟩
      · rintro ⟨is, h1⟩
        exact ⟨i :: is, by rw [h1]; rfl⟩

theorem linkNames_not_ub {w : Ws F} : ∀ (names : List Name), linkNames w names ≠ .ub
  | [] => by simp [linkNames]
  | y :: ys => by
    simp only [linkNames]
    cases linkName w y with
    | none => simp
    | some i =>
      have := linkNames_not_ub (w := w) ys
      cases hl : linkNames w ys with
      | ok a => simp [Res.bind]
      | err => simp [Res.bind]
      | ub => exact absurd hl this

end Iode.Lec
