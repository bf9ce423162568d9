import Verif.Lemmas.Macros

/-!
# The line engine follows the meaning of structured reports
-/
namespace Iode.Macros

theorem checkName_length {x : Name} (h : checkName .objects x = true) : x.length ≤ 20 := by
  cases x with
  | nil => simp [checkName] at h
  | cons c cs =>
    simp only [checkName, Bool.and_eq_true, decide_eq_true_eq] at h
    exact h.1.1.1

theorem defineCmd_ok {m : MacroDb} {x : Name} (h : checkName .objects x = true) (v : Val) :
    defineCmd m x v = .ok (m.insert x v) := by
  have hl := checkName_length h
  unfold defineCmd
  rw [List.take_of_length_le hl, List.drop_of_length_le (by omega)]
  simp only [List.isEmpty_nil, if_true, define1]
  rw [if_pos h]

theorem define1_ok {m : MacroDb} {x : Name} (h : checkName .objects x = true) (v : Val) :
    define1 m x v = .ok (m.insert x v) := by
  unfold define1; rw [if_pos h]

theorem Plain.hash {x : Name} (h : Plain x) : '#' ∉ x := h.2.1

theorem not_plain_saved (b : Name) (i : Nat) : ¬ Plain (saved b i) := fun h => h.hash (hash_mem_saved b i)
theorem not_plain_loopVar (x : Name) : ¬ Plain (loopVar x) := fun h => h.2.2 ⟨x, rfl⟩

/-- The macros of the engine stand for the bindings. -/
structure Rep (d : Nat) (act : List Name) (env : Env) (m : MacroDb) : Prop where
  vals : ∀ x, Plain x → m.find x = env x
  clean : Clean d m
  stack : ∀ b i, '#' ∉ b → m.find (saved b i) ≠ none → m.find b ≠ none
  owner : ∀ b i, '#' ∉ b → m.find (saved b i) ≠ none → b ∈ act ∨ ∃ x ∈ act, b = loopVar x

/-- Only plain names have changed. -/
def Same (m m' : MacroDb) : Prop := ∀ k, ¬ Plain k → m'.find k = m.find k

theorem Same.trans {a b c : MacroDb} (h1 : Same a b) (h2 : Same b c) : Same a c :=
  fun k hk => (h2 k hk).trans (h1 k hk)

theorem expandName_eq {d act env m} (h : Rep d act env m) {x : Name} (hx : Plain x) :
    expandName m x = (env x).getD [['%'] ++ x ++ ['%']] := by
  unfold expandName
  rw [h.vals x hx]
  cases env x <;> rfl

theorem expand_eq {d act env m} (h : Rep d act env m) {e : Expr} (he : Sees e) : expand m e = eval env e := by
  unfold expand eval
  induction e with
  | nil => rfl
  | cons p e ih =>
    simp only [List.flatMap_cons]
    rw [ih (fun x hx => he x (List.mem_cons_of_mem _ hx))]
    congr 1
    cases p with
    | word w => rfl
    | ref x => exact expandName_eq h (he x List.mem_cons_self)

theorem Rep.define {d act env m} (h : Rep d act env m) {x : Name} (hx : Plain x) (v : Val) :
    Rep d act (env.upd x (some v)) (m.insert x v) := by
  have hs : ∀ b i, (m.insert x v).find (saved b i) = m.find (saved b i) := fun b i =>
    SMap.find_insert_ne v m (saved_ne i hx.hash)
  refine ⟨?_, h.clean.insert hx.hash v, ?_, ?_⟩
  · intro y hy
    rw [SMap.find_insert]
    unfold Env.upd
    split
    · rfl
    · exact h.vals y hy
  · intro b i hb hf
    rw [hs] at hf
    rw [SMap.find_insert]
    split
    · simp
    · exact h.stack b i hb hf
  · intro b i hb hf
    rw [hs] at hf
    exact h.owner b i hb hf

theorem Same.define (m : MacroDb) {x : Name} (hx : Plain x) (v : Val) : Same m (m.insert x v) := fun k hk =>
  SMap.find_insert_ne v m (fun e => hk (e ▸ hx))

theorem Rep.undef {d act env m} (h : Rep d act env m) {x : Name} (hx : Plain x) (ha : x ∉ act) :
    Rep d act (env.upd x none) (undef1 m x) := by
  have hs : ∀ b i, (undef1 m x).find (saved b i) = m.find (saved b i) := fun b i => by
    unfold undef1; rw [SMap.find_erase, if_neg (saved_ne i hx.hash)]
  refine ⟨?_, h.clean.erase x, ?_, ?_⟩
  · intro y hy
    unfold undef1
    rw [SMap.find_erase]
    unfold Env.upd
    split
    · rfl
    · exact h.vals y hy
  · intro b i hb hf
    rw [hs] at hf
    unfold undef1
    rw [SMap.find_erase]
    split
    · rename_i e
      subst e
      rcases h.owner b i hb hf with h' | ⟨y, _, e⟩
      · exact absurd h' ha
      · exact absurd e (loopVar_ne hx)
    · exact h.stack b i hb hf
  · intro b i hb hf
    rw [hs] at hf
    exact h.owner b i hb hf

theorem Same.undef (m : MacroDb) {x : Name} (hx : Plain x) : Same m (undef1 m x) := fun k hk => by
  unfold undef1; rw [SMap.find_erase, if_neg (fun e : k = x => hk (e ▸ hx))]

theorem undefCmd_single (m : MacroDb) (x : Name) {d act env} (h : Rep d act env m) (hx : Plain x) (ha : x ∉ act) :
    Rep d act (env.upd x none) (undefCmd m [x]) ∧ Same m (undefCmd m [x]) := by
  unfold undefCmd
  split
  · exact ⟨h.undef hx ha, Same.undef m hx⟩
  · rename_i hn
    have hn : m.find x = none := (SMap.has_false_iff x m).mp (by simpa using hn)
    refine ⟨⟨?_, h.clean, h.stack, h.owner⟩, fun k _ => rfl⟩
    intro y hy
    show m.find y = _
    unfold Env.upd
    split
    · rename_i e; rw [e]; exact hn
    · exact h.vals y hy

/-- The engine gets from one state to another. -/
def Reaches (P : Procs) (c c' : Cfg) : Prop := ∃ n, steps P n c = .ok c'

theorem Reaches.refl (P : Procs) (c : Cfg) : Reaches P c c := ⟨0, rfl⟩

theorem steps_add (P : Procs) (a b : Nat) (c : Cfg) : steps P (a + b) c = (steps P a c).bind (steps P b) := by
  induction a generalizing c with
  | zero => simp [steps, Res.bind]
  | succ a ih =>
    rw [show a + 1 + b = (a + b) + 1 by omega]
    simp only [steps]
    cases step P c with
    | ok c' => exact ih c'
    | err => rfl
    | ub => rfl

theorem Reaches.trans {P : Procs} {a b c : Cfg} (h1 : Reaches P a b) (h2 : Reaches P b c) : Reaches P a c := by
  obtain ⟨n, h1⟩ := h1
  obtain ⟨k, h2⟩ := h2
  exact ⟨n + k, by rw [steps_add, h1]; exact h2⟩

theorem Reaches.head {P : Procs} {a b c : Cfg} (h1 : step P a = .ok b) (h2 : Reaches P b c) : Reaches P a c := by
  obtain ⟨k, h2⟩ := h2
  exact ⟨k + 1, by simp only [steps]; rw [h1]; exact h2⟩

theorem step_line {P : Procs} {f : Frame} {stk : List Frame} {m : MacroDb} {out : List Val} {pre : List Line}
    {l : Line} {post : List Line} (hl : f.lines = pre ++ l :: post) (hpc : f.pc = pre.length) :
    step P ⟨f :: stk, m, out⟩ = execLine P f stk m out l := by
  unfold step
  simp only
  rw [hl, hpc]
  simp

theorem avoids_lines {x : Name} {b : Block} (h : b.avoids x) :
    (∀ y e, Line.foreach y e ∈ b.lines → toLower y ≠ toLower x) ∧
    (∀ y, Line.next y ∈ b.lines → toLower y ≠ toLower x) := by
  induction b with
  | done => exact ⟨fun y e h => absurd h (by simp [Block.lines]), fun y h => absurd h (by simp [Block.lines])⟩
  | define _ _ r ih | undef _ r ih | text _ r ih | call _ _ r ih =>
    obtain ⟨h1, h2⟩ := ih h
    refine ⟨fun y e hm => ?_, fun y hm => ?_⟩
    · simp only [Block.lines, List.mem_cons, reduceCtorEq, false_or] at hm
      exact h1 y e hm
    · simp only [Block.lines, List.mem_cons, reduceCtorEq, false_or] at hm
      exact h2 y hm
  | loop z e b r ihb ihr =>
    obtain ⟨hz, hb, hr⟩ := h
    obtain ⟨h1, h2⟩ := ihb hb
    obtain ⟨h3, h4⟩ := ihr hr
    refine ⟨fun y e hm => ?_, fun y hm => ?_⟩
    · simp only [Block.lines, List.mem_cons, List.mem_append, reduceCtorEq, false_or, Line.foreach.injEq] at hm
      rcases hm with ⟨rfl, _⟩ | hm | hm
      · exact hz
      · exact h1 y e hm
      · exact h3 y e hm
    · simp only [Block.lines, List.mem_cons, List.mem_append, reduceCtorEq, false_or, Line.next.injEq] at hm
      rcases hm with hm | rfl | hm
      · exact h2 y hm
      · exact hz
      · exact h4 y hm

theorem findNext_skip {x : Name} {ls : List Line} (h : ∀ y, Line.next y ∈ ls → toLower y ≠ toLower x)
    (post : List Line) (pc : Nat) : findNext x (ls ++ .next x :: post) pc = pc + ls.length + 1 := by
  induction ls generalizing pc with
  | nil => simp [findNext]
  | cons l ls ih =>
    have ih := ih (fun y hy => h y (List.mem_cons_of_mem _ hy)) (pc + 1)
    have e : findNext x (l :: ls ++ .next x :: post) pc = findNext x (ls ++ .next x :: post) (pc + 1) := by
      cases l with
      | next y =>
        show (if _ then _ else _) = _
        rw [if_neg (h y List.mem_cons_self)]
        rfl
      | _ => rfl
    rw [e, ih, List.length_cons]
    omega

theorem findForeach_skip {x : Name} {ls : List Line} (h : ∀ y e, Line.foreach y e ∈ ls → toLower y ≠ toLower x)
    (rest : List Line) : findForeach x (ls ++ rest) = findForeach x rest := by
  induction ls with
  | nil => rfl
  | cons l ls ih =>
    have ih := ih (fun y e hy => h y e (List.mem_cons_of_mem _ hy))
    rw [← ih]
    cases l with
    | foreach y e =>
      show (if _ then _ else _) = _
      rw [if_neg (fun hyx => h y e List.mem_cons_self (by rw [hyx]))]
      rfl
    | _ => rfl

/-- Going to the next turn of a loop. -/
def loopGo (lines : List Line) (params : List Name) (stk : List Frame) (x : Name) (m : MacroDb) (out : List Val)
    (j n : Nat) : Res Cfg :=
  (nextIndex m x).bind fun r => .ok ⟨⟨lines, if r.1 then j else n, params⟩ :: stk, r.2, out⟩

theorem step_next {P : Procs} {x : Name} {e : Expr} {b : Block} (hav : b.avoids x) {pre post lines : List Line}
    (hl : lines = pre ++ .foreach x e :: (b.lines ++ .next x :: post)) (params : List Name) (stk : List Frame)
    (m : MacroDb) (out : List Val) :
    step P ⟨⟨lines, pre.length + 1 + b.lines.length, params⟩ :: stk, m, out⟩ =
      loopGo lines params stk x m out (pre.length + 1) (pre.length + 1 + b.lines.length + 1) := by
  have hl' : lines = (pre ++ .foreach x e :: b.lines) ++ .next x :: post := by rw [hl]; simp
  have hlen : pre.length + 1 + b.lines.length = (pre ++ .foreach x e :: b.lines).length := by
    simp; omega
  rw [step_line (pre := pre ++ .foreach x e :: b.lines) (l := .next x) (post := post) hl' hlen]
  unfold execLine
  have hf : findForeach x (lines.take (pre.length + 1 + b.lines.length)).reverse = some (pre.length + 1) := by
    rw [hl', hlen, List.take_left]
    rw [List.reverse_append, List.reverse_cons]
    rw [List.append_assoc, findForeach_skip (fun y e hm => (avoids_lines hav).1 y e (List.mem_reverse.mp hm))]
    show (if _ then _ else _) = _
    rw [if_pos rfl]
    simp
  simp only
  rw [hf]
  rfl

theorem step_foreach {P : Procs} {x : Name} {e : Expr} {b : Block} (hav : b.avoids x) {pre post lines : List Line}
    (hl : lines = pre ++ .foreach x e :: (b.lines ++ .next x :: post)) (params : List Name) (stk : List Frame)
    (m : MacroDb) (out : List Val) :
    step P ⟨⟨lines, pre.length, params⟩ :: stk, m, out⟩ =
      (loopStart m x (expand m e)).bind fun m1 =>
        loopGo lines params stk x m1 out (pre.length + 1) (pre.length + 1 + b.lines.length + 1) := by
  rw [step_line (pre := pre) (l := .foreach x e) (post := b.lines ++ .next x :: post) hl rfl]
  have hf : findNext x (lines.drop (pre.length + 1)) (pre.length + 1) = pre.length + 1 + b.lines.length + 1 := by
    have : lines.drop (pre.length + 1) = b.lines ++ .next x :: post := by
      rw [hl, show pre ++ .foreach x e :: (b.lines ++ .next x :: post)
        = (pre ++ [.foreach x e]) ++ (b.lines ++ .next x :: post) by simp]
      rw [show pre.length + 1 = (pre ++ [Line.foreach x e]).length by simp, List.drop_left]
    rw [this, findNext_skip (avoids_lines hav).2]
  unfold execLine
  simp only
  rw [hf]
  rfl

/-- What the simulation shows for each kind of task. -/
def Claim (P : Procs) : Task → Nat → List Name → Env → List Val → Env → List Val → Prop
  | .block b, d, act, env, out, env', out' =>
    b.Distinct → ∀ m, Rep d act env m → ∀ pre post lines, lines = pre ++ (b.lines ++ post) → ∀ params stk,
      ∃ m', Rep d act env' m' ∧ Same m m' ∧
        Reaches P ⟨⟨lines, pre.length, params⟩ :: stk, m, out⟩
          ⟨⟨lines, pre.length + b.lines.length, params⟩ :: stk, m', out'⟩
  | .turns x b vs, d, act, env, out, env', out' =>
    b.Distinct → b.avoids x → Plain x → checkName .objects (loopVar x) = true → ∀ m w, Rep d act (env.upd x w) m →
      m.find (loopVar x) = some vs → ∀ pre e post lines,
      lines = pre ++ .foreach x e :: (b.lines ++ .next x :: post) → ∀ params stk,
      ∃ m' w', Rep d act (env'.upd x w') m' ∧ (∀ k, ¬ Plain k → k ≠ loopVar x → m'.find k = m.find k) ∧
        ∀ me, loopEnd m' x = .ok me →
          ∃ c1, loopGo lines params stk x m out (pre.length + 1) (pre.length + 1 + b.lines.length + 1) = .ok c1 ∧
            Reaches P c1 ⟨⟨lines, pre.length + 1 + b.lines.length + 1, params⟩ :: stk, me, out'⟩

theorem upd_upd (env : Env) (x : Name) (a b : Option Val) : (env.upd x a).upd x b = env.upd x b := by
  funext y; unfold Env.upd; split <;> rfl

theorem upd_self (env : Env) (x : Name) : env.upd x (env x) = env := by
  funext y; unfold Env.upd; split
  · rename_i e; rw [e]
  · rfl

theorem Rep.setLoopVar {d act env m} (h : Rep d act env m) {x : Name} (hx : Plain x) (v : Val) :
    Rep d act env (m.insert (loopVar x) v) := by
  have hh := loopVar_hash hx.hash
  have hs : ∀ b i, (m.insert (loopVar x) v).find (saved b i) = m.find (saved b i) := fun b i =>
    SMap.find_insert_ne v m (saved_ne i hh)
  refine ⟨?_, h.clean.insert hh v, ?_, ?_⟩
  · intro y hy
    rw [SMap.find_insert_ne v m (loopVar_ne hy)]
    exact h.vals y hy
  · intro b i hb hf
    rw [hs] at hf
    rw [SMap.find_insert]
    split
    · simp
    · exact h.stack b i hb hf
  · intro b i hb hf
    rw [hs] at hf
    exact h.owner b i hb hf

theorem Rep.push {d d' act act' env m m1 b} (h : Rep d act env m) (hp : Pushed m b m1) (hb : '#' ∉ b)
    (hc : Clean d' m1) (hact : ∀ x ∈ act, x ∈ act') (hown : b ∈ act' ∨ ∃ x ∈ act', b = loopVar x) :
    Rep d' act' env m1 := by
  have hfind : ∀ k, '#' ∉ k → m1.find k = m.find k := fun k hk =>
    save_other hp (fun i e => saved_ne i hk e.symm)
  refine ⟨?_, hc, ?_, ?_⟩
  · intro y hy
    rw [hfind y hy.hash]
    exact h.vals y hy
  · intro c i hcc hf
    rw [hfind c hcc]
    by_cases e : saved c i = saved b (nextDepth (calcDepth m b))
    · obtain ⟨e1, _⟩ := saved_inj hcc hb e
      rw [e, hp.top] at hf
      rw [e1]; exact hf
    · rw [hp.other _ e] at hf
      exact h.stack c i hcc hf
  · intro c i hcc hf
    by_cases e : saved c i = saved b (nextDepth (calcDepth m b))
    · obtain ⟨e1, _⟩ := saved_inj hcc hb e
      rw [e1]; exact hown
    · rw [hp.other _ e] at hf
      rcases h.owner c i hcc hf with h' | ⟨x, hx, e'⟩
      · exact .inl (hact c h')
      · exact .inr ⟨x, hact x hx, e'⟩

theorem Rep.weaken {d d' act act' env m} (h : Rep d act env m) (hd : d ≤ d') (hact : ∀ x ∈ act, x ∈ act') :
    Rep d' act' env m := by
  refine ⟨h.vals, h.clean.mono hd, h.stack, ?_⟩
  intro c i hcc hf
  rcases h.owner c i hcc hf with h' | ⟨x, hx, e'⟩
  · exact .inl (hact c h')
  · exact .inr ⟨x, hact x hx, e'⟩

theorem Rep.pushAll_aux {act : List Name} {env : Env} {m m1 : MacroDb} {ps : List Name} (hp : PushedAll m ps m1)
    (hps : ∀ b ∈ ps, '#' ∉ b) (hact : ∀ b ∈ ps, b ∈ act) :
    ∀ d, Rep d act env m → ∃ d2, Rep d2 act env m1 := by
  induction hp with
  | nil => exact fun d h => ⟨d, h⟩
  | @cons m p m' ps m1 h1 _ ih =>
    intro d h
    have hc' : Clean (d + (nextDepth (calcDepth m p) + 1)) m' := by
      intro key hk
      by_cases e : key = saved p (nextDepth (calcDepth m p))
      · exact .inr ⟨p, _, hps p List.mem_cons_self, e, by omega⟩
      · obtain ⟨v, hv⟩ := (SMap.mem_keys_iff key m').mp hk
        rw [h1.other key e] at hv
        exact (h.clean.mono (by omega)) key ((SMap.mem_keys_iff key m).mpr ⟨v, hv⟩)
    exact ih (fun b hb => hps b (List.mem_cons_of_mem _ hb)) (fun b hb => hact b (List.mem_cons_of_mem _ hb)) _
      (h.push h1 (hps p List.mem_cons_self) hc' (fun x hx => hx) (.inl (hact p List.mem_cons_self)))

theorem Rep.pushAll {d act env m m1} {ps : List Name} (h : Rep d act env m) (hp : PushedAll m ps m1)
    (hps : ∀ b ∈ ps, '#' ∉ b) (hc : Clean d m1) (hact : ∀ b ∈ ps, b ∈ act) : Rep d act env m1 := by
  obtain ⟨d2, h2⟩ := Rep.pushAll_aux hp hps hact d h
  exact ⟨h2.vals, hc, h2.stack, h2.owner⟩

/-- Back at the outer level: the names in `S` have been restored, the others kept. -/
theorem Rep.back {d act env m d' act' env' m' me} (h : Rep d act env m) (h' : Rep d' act' env' m')
    (hc : Clean d' me) (S : Name → Prop) [DecidablePred S]
    (hS : ∀ b, '#' ∉ b → S b → me.find b = m.find b) (hO : ∀ b, '#' ∉ b → ¬ S b → me.find b = m'.find b)
    (hsaved : ∀ b i, '#' ∉ b → me.find (saved b i) = m.find (saved b i))
    (hsaved' : ∀ b i, '#' ∉ b → ¬ S b → m'.find (saved b i) = m.find (saved b i)) :
    Rep d act (fun y => if S y then env y else env' y) me := by
  refine ⟨?_, ?_, ?_, ?_⟩
  · intro y hy
    split
    · rename_i e; rw [hS y hy.hash e]; exact h.vals y hy
    · rename_i e; rw [hO y hy.hash e]; exact h'.vals y hy
  · intro key hk
    rcases hc key hk with h1 | ⟨b, i, h1, h2, _⟩
    · exact .inl h1
    · obtain ⟨v, hv⟩ := (SMap.mem_keys_iff key me).mp hk
      rw [h2, hsaved b i h1] at hv
      exact h.clean key (by rw [h2]; exact (SMap.mem_keys_iff _ m).mpr ⟨v, hv⟩)
  · intro b i hb hf
    rw [hsaved b i hb] at hf
    by_cases e : S b
    · rw [hS b hb e]; exact h.stack b i hb hf
    · rw [hO b hb e]
      exact h'.stack b i hb (by rw [hsaved' b i hb e]; exact hf)
  · intro b i hb hf
    rw [hsaved b i hb] at hf
    exact h.owner b i hb hf

theorem bindParams_ok {d act env m env0} {ps : List Name} {ws : List Word} (h : Rep d act env m)
    (hps : ∀ b ∈ ps, Plain b) (hb : bindEnv env ps ws = some env0) :
    ∃ m2, bindParams m ps ws = .ok m2 ∧ Rep d act env0 m2 ∧ Same m m2 := by
  induction ps generalizing env m ws with
  | nil =>
    cases ws with
    | nil =>
      simp only [bindEnv, Option.some.injEq] at hb
      subst hb
      exact ⟨m, rfl, h, fun k _ => rfl⟩
    | cons w ws => simp [bindEnv] at hb
  | cons p ps ih =>
    have hp := hps p List.mem_cons_self
    cases ws with
    | nil =>
      simp only [bindEnv, Option.some.injEq] at hb
      subst hb
      exact ⟨m, by simp only [bindParams], h, fun k _ => rfl⟩
    | cons w ws =>
      cases ps with
      | nil =>
        simp only [bindEnv, Option.some.injEq] at hb
        subst hb
        refine ⟨m.insert p (w :: ws), ?_, h.define hp _, Same.define m hp _⟩
        simp only [bindParams]
        exact define1_ok hp.1 _
      | cons q qs =>
        simp only [bindEnv] at hb
        obtain ⟨m2, h1, h2, h3⟩ := ih (h.define hp [w]) (fun b hb => hps b (List.mem_cons_of_mem _ hb)) hb
        refine ⟨m2, ?_, h2, (Same.define m hp _).trans h3⟩
        simp only [bindParams]
        rw [define1_ok hp.1]
        exact h1

theorem claim_over (P : Procs) {d act env out x b} : Claim P (.turns x b []) d act env out env out := by
  intro _ _ _ _ m w h hf pre e post lines hl params stk
  refine ⟨m, w, h, fun k _ _ => rfl, ?_⟩
  intro me hme
  have hn : nextIndex m x = .ok (false, me) := by
    unfold nextIndex
    have : expandName m (loopVar x) = [] := by unfold expandName; rw [hf]
    rw [this]
    simp only
    rw [hme]; rfl
  refine ⟨_, ?_, Reaches.refl _ _⟩
  unfold loopGo
  rw [hn]
  rfl

theorem claim_turn (P : Procs) {d act env out env1 out1 env' out' x b v vs}
    (ih1 : Claim P (.block b) d act (env.upd x (some [v])) out env1 out1)
    (ih2 : Claim P (.turns x b vs) d act env1 out1 env' out') :
    Claim P (.turns x b (v :: vs)) d act env out env' out' := by
  intro hd hav hx hF m w h hf pre e post lines hl params stk
  -- the next value is taken
  have he : expandName m (loopVar x) = v :: vs := by unfold expandName; rw [hf]
  have he2 : expandName (m.insert x [v]) (loopVar x) = v :: vs := by
    unfold expandName; rw [SMap.find_insert_ne _ _ (loopVar_ne hx).symm, hf]
  have hn : nextIndex m x = .ok (true, (m.insert x [v]).insert (loopVar x) vs) := by
    unfold nextIndex
    rw [he]
    simp only
    rw [defineCmd_ok hx.1]
    show (defineCmd (m.insert x [v]) (loopVar x) ((expandName (m.insert x [v]) (loopVar x)).drop 1)).bind _ = _
    rw [he2, defineCmd_ok hF]
    rfl
  have hr : Rep d act (env.upd x (some [v])) ((m.insert x [v]).insert (loopVar x) vs) := by
    have := (h.define hx [v]).setLoopVar hx vs
    rw [upd_upd] at this
    exact this
  -- the body
  obtain ⟨m1, r1, s1, g1⟩ := ih1 hd _ hr (pre ++ [.foreach x e]) (.next x :: post) lines
    (by rw [hl]; simp) params stk
  -- the remaining turns
  have hf1 : m1.find (loopVar x) = some vs := by
    rw [s1 _ (not_plain_loopVar x), SMap.find_insert_self]
  obtain ⟨m2, w2, r2, s2, g2⟩ := ih2 hd hav hx hF m1 (env1 x) (by rw [upd_self]; exact r1) hf1 pre e post lines hl
    params stk
  refine ⟨m2, w2, r2, ?_, ?_⟩
  · intro k hk hk2
    rw [s2 k hk hk2, s1 k hk, SMap.find_insert_ne _ _ hk2, SMap.find_insert_ne _ _ (fun e : k = x => hk (e ▸ hx))]
  · intro me hme
    obtain ⟨c1, h1, h2⟩ := g2 me hme
    refine ⟨_, by unfold loopGo; rw [hn]; rfl, ?_⟩
    have g1' : Reaches P ⟨⟨lines, pre.length + 1, params⟩ :: stk, (m.insert x [v]).insert (loopVar x) vs, out⟩
        ⟨⟨lines, pre.length + 1 + b.lines.length, params⟩ :: stk, m1, out1⟩ := by
      simpa using g1
    refine Reaches.trans g1' (Reaches.head ?_ h2)
    rw [step_next hav hl]
    exact h1

theorem claim_loop (P : Procs) {d act env out env1 out1 env' out' x e b r} (hx : LoopName d x) (he : Sees e)
    (ih1 : Claim P (.turns x b (eval env e)) (d + 1) (x :: act) env out env1 out1)
    (ih2 : Claim P (.block r) d act (env1.upd x (env x)) out1 env' out') :
    Claim P (.block (.loop x e b r)) d act env out env' out' := by
  intro hd m h pre post lines hl params stk
  obtain ⟨hav, hdb, hdr⟩ := hd
  obtain ⟨hpx, hsx, hsf, hcf⟩ := hx
  have hfh := loopVar_hash hpx.hash
  have hxf : loopVar x ≠ x := (loopVar_ne hpx).symm
  -- the start of the loop
  obtain ⟨m1, a1, a2, a3⟩ := save_ok (h.clean.mono (Nat.le_succ d)) hpx.hash (nextDepth_le h.clean hpx.hash)
    (Nat.lt_succ_self d) hsx
  have hsf1 : ∀ i, m1.find (saved (loopVar x) i) = m.find (saved (loopVar x) i) := fun i =>
    save_other a2 (fun j e => hxf (saved_inj hfh hpx.hash e).1)
  have hd1 : nextDepth (calcDepth m1 (loopVar x)) ≤ d := by
    rw [calcDepth_congr h.clean a3 hfh hsf1]
    exact nextDepth_le h.clean hfh
  obtain ⟨m2, b1, b2, b3⟩ := save_ok a3 hfh hd1 (Nat.lt_succ_self d) hsf
  have r1 : Rep (d + 1) (x :: act) env m1 :=
    h.push a2 hpx.hash a3 (fun y hy => List.mem_cons_of_mem _ hy) (.inl List.mem_cons_self)
  have r2 : Rep (d + 1) (x :: act) env m2 :=
    r1.push b2 hfh b3 (fun y hy => hy) (.inr ⟨x, List.mem_cons_self, rfl⟩)
  let v := eval env e
  have r3 : Rep (d + 1) (x :: act) (env.upd x (some v)) ((m2.insert x v).insert (loopVar x) v) :=
    (r2.define hpx v).setLoopVar hpx v
  have hstart : loopStart m x (expand m e) = .ok ((m2.insert x v).insert (loopVar x) v) := by
    unfold loopStart
    rw [a1]
    show (save m1 (loopVar x)).bind _ = _
    rw [b1, expand_eq h he]
    show (define1 m2 x v).bind _ = _
    rw [define1_ok hpx.1]
    show defineCmd (m2.insert x v) (loopVar x) (expandName (m2.insert x v) x) = _
    rw [defineCmd_ok hcf]
    have : expandName (m2.insert x v) x = v := by unfold expandName; rw [SMap.find_insert_self]
    rw [this]
  -- the turns
  have hlb : lines = pre ++ .foreach x e :: (b.lines ++ .next x :: (r.lines ++ post)) := by
    rw [hl]; simp [Block.lines]
  obtain ⟨m', w', r4, s4, g4⟩ := ih1 hdb hav hpx hcf _ (some v) r3 (SMap.find_insert_self _ _ _) pre e
    (r.lines ++ post) lines hlb params stk
  -- every saved macro is that of the second database
  have hsv : ∀ c i, '#' ∉ c → m'.find (saved c i) = m2.find (saved c i) := fun c i hc => by
    rw [s4 _ (not_plain_saved c i) (saved_ne i hfh), SMap.find_insert_ne _ _ (saved_ne i hfh),
      SMap.find_insert_ne _ _ (saved_ne i hpx.hash)]
  -- the end of the loop
  let m'' := undef1 (undef1 m' x) (loopVar x)
  have hm'' : ∀ k, k ≠ x → k ≠ loopVar x → m''.find k = m'.find k := fun k h1 h2 => by
    show (SMap.erase _ (SMap.erase _ m')).find k = _
    rw [SMap.find_erase, if_neg h2, SMap.find_erase, if_neg h1]
  have hcm : Clean (d + 1) m'' := (r4.clean.erase x).erase (loopVar x)
  obtain ⟨m5, c1, c2, c3, c4, c5⟩ := restore_ok hpx.hash hpx.1 (fun i => h.stack x i hpx.hash) a2 hcm (fun i => by
    rw [hm'' _ (saved_ne i hpx.hash) (saved_ne i hfh), hsv x i hpx.hash]
    exact save_other b2 (fun j e => hxf (saved_inj hpx.hash hfh e).1.symm))
  have hsave5 : ∀ c i, '#' ∉ c → c ≠ x → m5.find (saved c i) = m2.find (saved c i) := fun c i hc hcx => by
    rw [c4 _ (saved_ne i hpx.hash) (fun j e => hcx (saved_inj hc hpx.hash e).1),
      hm'' _ (saved_ne i hpx.hash) (saved_ne i hfh), hsv c i hc]
  obtain ⟨me, e1, e2, e3, e4, e5⟩ := restore_ok hfh hcf (fun i => r1.stack (loopVar x) i hfh) b2 c5 (fun i =>
    hsave5 (loopVar x) i hfh hxf)
  have hend : loopEnd m' x = .ok me := by
    unfold loopEnd
    show (restore m'' x).bind _ = _
    rw [c1]
    exact e1
  obtain ⟨cc, g5, g6⟩ := g4 me hend
  -- the macros after the loop
  have hme_saved : ∀ c i, '#' ∉ c → me.find (saved c i) = m.find (saved c i) := by
    intro c i hc
    by_cases h1 : c = loopVar x
    · subst h1
      rw [e3 i, hsf1 i]
    · rw [e4 _ (saved_ne i hfh) (fun j e => h1 (saved_inj hc hfh e).1)]
      by_cases h2 : c = x
      · rw [h2]; exact c3 i
      · rw [hsave5 c i hc h2, save_other b2 (fun j e => h1 (saved_inj hc hfh e).1),
          save_other a2 (fun j e => h2 (saved_inj hc hpx.hash e).1)]
  have hme_x : me.find x = m.find x := by
    rw [e4 x (loopVar_ne hpx) (fun i e => saved_ne i hpx.hash e.symm)]
    exact c2
  have hme_f : me.find (loopVar x) = m.find (loopVar x) := by
    rw [e2]
    exact save_other a2 (fun i e => saved_ne i hfh e.symm)
  have hme_o : ∀ k, k ≠ x → k ≠ loopVar x → '#' ∉ k → me.find k = m'.find k := fun k h1 h2 h3 => by
    rw [e4 k h2 (fun i e => saved_ne i h3 e.symm), c4 k h1 (fun i e => saved_ne i h3 e.symm), hm'' k h1 h2]
  have rme : Rep d act (env1.upd x (env x)) me := by
    have hback := h.back r4 e5 (fun c => c = x ∨ c = loopVar x)
      (fun c _ hS => by
        rcases hS with rfl | rfl
        · exact hme_x
        · exact hme_f)
      (fun c hc hS => hme_o c (fun e => hS (.inl e)) (fun e => hS (.inr e)) hc)
      hme_saved
      (fun c i hc hS => by
        rw [hsv c i hc, save_other b2 (fun j e => hS (.inr (saved_inj hc hfh e).1)),
          save_other a2 (fun j e => hS (.inl (saved_inj hc hpx.hash e).1))])
    refine ⟨?_, hback.clean, hback.stack, hback.owner⟩
    intro y hy
    rw [hback.vals y hy]
    by_cases hyx : y = x
    · subst hyx; simp [Env.upd]
    · simp [Env.upd, hyx, loopVar_ne hy]
  have sme : Same m me := by
    intro k hk
    by_cases h1 : k = loopVar x
    · subst h1; exact hme_f
    · by_cases h2 : ∃ i, k = saved x i
      · obtain ⟨i, rfl⟩ := h2; exact hme_saved x i hpx.hash
      · by_cases h3 : ∃ i, k = saved (loopVar x) i
        · obtain ⟨i, rfl⟩ := h3; exact hme_saved _ i hfh
        · have hkx : k ≠ x := fun e => hk (e ▸ hpx)
          rw [e4 k h1 (fun i e => h3 ⟨i, e⟩), c4 k hkx (fun i e => h2 ⟨i, e⟩), hm'' k hkx h1, s4 k hk h1,
            SMap.find_insert_ne _ _ h1, SMap.find_insert_ne _ _ hkx, save_other b2 (fun i e => h3 ⟨i, e⟩),
            save_other a2 (fun i e => h2 ⟨i, e⟩)]
  -- the rest
  obtain ⟨mr, r5, s5, g7⟩ := ih2 hdr me rme (pre ++ .foreach x e :: (b.lines ++ [.next x])) post lines
    (by rw [hl]; simp [Block.lines]) params stk
  refine ⟨mr, r5, sme.trans s5, ?_⟩
  refine Reaches.head (b := cc) ?_ (g6.trans ?_)
  · rw [step_foreach hav hlb, hstart]
    exact g5
  · have hlen : (pre ++ .foreach x e :: (b.lines ++ [Line.next x])).length = pre.length + 1 + b.lines.length + 1 := by
      simp; omega
    have hlen2 : pre.length + 1 + b.lines.length + 1 + r.lines.length
        = pre.length + (Block.loop x e b r).lines.length := by
      simp [Block.lines]; omega
    rw [hlen, hlen2] at g7
    exact g7

theorem claim_call (P : Procs) {d act env out env0 env1 out1 env' out' p e r} {pr : SProc}
    (hP : P p = some ⟨pr.params, pr.body.lines⟩) (hdist : pr.body.Distinct) (he : Sees e) (hnd : pr.params.Nodup)
    (hps : ∀ x ∈ pr.params, Plain x ∧ ShortFor d x)
    (hb : bindEnv env pr.params (eval env e) = some env0)
    (ih1 : Claim P (.block pr.body) (d + 1) (pr.params ++ act) env0 out env1 out1)
    (ih2 : Claim P (.block r) d act (env1.restoring env pr.params) out1 env' out') :
    Claim P (.block (.call p e r)) d act env out env' out' := by
  intro hd m h pre post lines hl params stk
  have hhash : ∀ b ∈ pr.params, '#' ∉ b := fun b hb => (hps b hb).1.hash
  obtain ⟨m1, a1, a2, a3⟩ := saveList_ok (d := d) (d' := d + 1) (ps := pr.params) (h.clean.mono (Nat.le_succ d)) hnd
    (fun b hb => ⟨hhash b hb, nextDepth_le h.clean (hhash b hb), (hps b hb).2⟩) (Nat.lt_succ_self d)
  have h' : Rep (d + 1) (pr.params ++ act) env m :=
    h.weaken (Nat.le_succ d) (fun x hx => List.mem_append_right _ hx)
  have r1 : Rep (d + 1) (pr.params ++ act) env m1 :=
    h'.pushAll a2 hhash a3 (fun b hb => List.mem_append_left _ hb)
  obtain ⟨m2, b1, b2, b3⟩ := bindParams_ok r1 (fun b hb => (hps b hb).1) hb
  obtain ⟨m3, r3, s3, g3⟩ := ih1 hdist m2 b2 [] [] pr.body.lines (by simp) pr.params
    (⟨lines, pre.length + 1, params⟩ :: stk)
  have hsv : ∀ c i, m3.find (saved c i) = m1.find (saved c i) := fun c i => by
    rw [s3 _ (not_plain_saved c i), b3 _ (not_plain_saved c i)]
  obtain ⟨me, c1, c2, c3, c4⟩ := restoreList_ok (d' := d + 1) hnd (fun b hb => ⟨hhash b hb, (hps b hb).1.1⟩)
    (fun b hb i => h.stack b i (hhash b hb)) a2 r3.clean (fun b _ i => hsv b i)
  have hsaved : ∀ c i, '#' ∉ c → me.find (saved c i) = m.find (saved c i) := by
    intro c i hc
    by_cases h1 : c ∈ pr.params
    · exact (c2 c h1).2 i
    · have hne : ∀ b ∈ pr.params, ∀ j, saved c i ≠ saved b j := fun b hb j e =>
        h1 ((saved_inj hc (hhash b hb) e).1 ▸ hb)
      rw [c3 _ (fun hm => hhash _ hm (hash_mem_saved c i)) hne, hsv c i, a2.other hne]
  have rme : Rep d act (env1.restoring env pr.params) me := by
    have := h.back r3 c4 (fun c => c ∈ pr.params) (fun c _ hS => (c2 c hS).1)
      (fun c hc hS => c3 c hS (fun b _ i e => saved_ne i hc e.symm)) hsaved
      (fun c i hc hS => by
        rw [hsv c i, a2.other (fun b hb j e => hS ((saved_inj hc (hhash b hb) e).1 ▸ hb))])
    exact this
  have sme : Same m me := by
    intro k hk
    by_cases h1 : ∃ b ∈ pr.params, ∃ i, k = saved b i
    · obtain ⟨b, hb, i, rfl⟩ := h1
      exact (c2 b hb).2 i
    · have hne : ∀ b ∈ pr.params, ∀ j, k ≠ saved b j := fun b hb j e => h1 ⟨b, hb, j, e⟩
      rw [c3 k (fun hm => hk (hps k hm).1) hne, s3 k hk, b3 k hk, a2.other hne]
  obtain ⟨mr, r5, s5, g7⟩ := ih2 hd me rme (pre ++ [.call p e]) post lines (by rw [hl]; simp [Block.lines]) params stk
  refine ⟨mr, r5, sme.trans s5, ?_⟩
  have hcall : step P ⟨⟨lines, pre.length, params⟩ :: stk, m, out⟩ =
      .ok ⟨⟨pr.body.lines, 0, pr.params⟩ :: ⟨lines, pre.length + 1, params⟩ :: stk, m2, out⟩ := by
    rw [step_line (pre := pre) (l := .call p e) (post := r.lines ++ post) (by rw [hl]; simp [Block.lines]) rfl]
    unfold execLine
    simp only
    rw [hP]
    simp only
    rw [a1]
    show (bindParams m1 pr.params (expand m e)).bind _ = _
    rw [expand_eq h he, b1]
    rfl
  have hleave : step P ⟨⟨pr.body.lines, pr.body.lines.length, pr.params⟩ :: ⟨lines, pre.length + 1, params⟩ :: stk,
      m3, out1⟩ = .ok ⟨⟨lines, pre.length + 1, params⟩ :: stk, me, out1⟩ := by
    unfold step
    simp only
    rw [List.getElem?_eq_none (Nat.le_refl _)]
    simp only [leave]
    rw [c1]
    rfl
  refine Reaches.head hcall (Reaches.trans ?_ (Reaches.head hleave ?_))
  · simpa using g3
  · have hlen : (pre ++ [Line.call p e]).length = pre.length + 1 := by simp
    have hlen2 : pre.length + 1 + r.lines.length = pre.length + (Block.call p e r).lines.length := by
      simp [Block.lines]; omega
    rw [hlen, hlen2] at g7
    exact g7

/-- A line that only moves on by one. -/
theorem claim_simple (P : Procs) {d act env0 env out0 out env' out'} {r : Block} {l : Line} {b : Block}
    (hb : b.lines = l :: r.lines) (hdist : b.Distinct → r.Distinct)
    (hstep : ∀ m, Rep d act env0 m → ∃ m1, Rep d act env m1 ∧ Same m m1 ∧ ∀ f stk,
      execLine P f stk m out0 l = .ok ⟨{ f with pc := f.pc + 1 } :: stk, m1, out⟩)
    (ih : Claim P (.block r) d act env out env' out') :
    Claim P (.block b) d act env0 out0 env' out' := by
  intro hd m h pre post lines hl params stk
  obtain ⟨m1, r1, s1, g1⟩ := hstep m h
  obtain ⟨m2, r2, s2, g2⟩ := ih (hdist hd) m1 r1 (pre ++ [l]) post lines (by rw [hl, hb]; simp) params stk
  refine ⟨m2, r2, s1.trans s2, ?_⟩
  refine Reaches.head (b := ⟨⟨lines, pre.length + 1, params⟩ :: stk, m1, out⟩) ?_ ?_
  · rw [step_line (pre := pre) (l := l) (post := r.lines ++ post) (by rw [hl, hb]; simp) rfl, g1]
  · have hlen : (pre ++ [l]).length = pre.length + 1 := by simp
    have hlen2 : pre.length + 1 + r.lines.length = pre.length + b.lines.length := by
      rw [hb]; simp; omega
    rw [hlen, hlen2] at g2
    exact g2

/-- The engine follows the meaning of every structured report. -/
theorem claim_of_exec {S : Name → Option SProc} {P : Procs}
    (hP : ∀ p pr, S p = some pr → P p = some ⟨pr.params, pr.body.lines⟩ ∧ pr.body.Distinct)
    {t d act env out env' out'} (h : Exec S t d act env out env' out') : Claim P t d act env out env' out' := by
  induction h with
  | done =>
    intro _ m h pre post lines hl params stk
    exact ⟨m, h, fun k _ => rfl, by simpa [Block.lines] using Reaches.refl _ _⟩
  | @define d act env out env' out' x e r hx he _ ih =>
    refine claim_simple P (l := .define x e) rfl (fun hd => hd) (fun m h => ?_) ih
    refine ⟨m.insert x (eval env e), h.define hx _, Same.define m hx _, fun f stk => ?_⟩
    unfold execLine
    simp only
    rw [expand_eq h he, defineCmd_ok hx.1]
    rfl
  | @undef d act env out env' out' x r hx ha _ ih =>
    refine claim_simple P (l := .undef [x]) rfl (fun hd => hd) (fun m h => ?_) ih
    obtain ⟨h1, h2⟩ := undefCmd_single m x h hx ha
    exact ⟨_, h1, h2, fun f stk => rfl⟩
  | @text d act env out env' out' e r he _ ih =>
    refine claim_simple P (l := .text e) rfl (fun hd => hd) (fun m h => ?_) ih
    refine ⟨m, h, fun k _ => rfl, fun f stk => ?_⟩
    unfold execLine
    simp only
    rw [expand_eq h he]
  | loop hx he _ _ ih1 ih2 => exact claim_loop P hx he ih1 ih2
  | over => exact claim_over P
  | turn _ _ ih1 ih2 => exact claim_turn P ih1 ih2
  | call hp he hnd hps hb _ _ ih1 ih2 =>
    obtain ⟨h1, h2⟩ := hP _ _ hp
    exact claim_call P h1 h2 he hnd hps hb ih1 ih2

end Iode.Macros
