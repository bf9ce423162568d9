import Verif.Spec.Macros
import Verif.Lemmas.SMap
import Verif.Lemmas.Text

/-!
# Lemmas on saved macros

Saving a macro puts it on a stack made of the names `x#0`, `x#1`, …; restoring it takes the top of the stack,
whatever happened to the other names in between.
-/
namespace Iode.Macros

theorem dropPrefix_some {p s t : Name} (h : dropPrefix p s = some t) : s = p ++ t := by
  induction p generalizing s with
  | nil => simp only [dropPrefix] at h; cases h; rfl
  | cons c p ih =>
    cases s with
    | nil => simp [dropPrefix] at h
    | cons d s =>
      simp only [dropPrefix] at h
      split at h
      · rename_i e; subst e; rw [ih h]; rfl
      · cases h

theorem dropPrefix_append (p t : Name) : dropPrefix p (p ++ t) = some t := by
  induction p with
  | nil => rfl
  | cons c p ih => simp only [List.cons_append, dropPrefix, if_true, ih]

theorem natToChars_inj {i j : Nat} (h : natToChars i = natToChars j) : i = j := by
  have := congrArg (digitsVal 0) h
  simpa only [digitsVal_natToChars] using this

theorem atoiName_natToChars (i : Nat) : atoiName (natToChars i) = i := by
  unfold atoiName
  rw [takeWhile_isDigit (natToChars_isDigit i), digitsVal_natToChars]

theorem split_hash {b b' s t : Name} (h : '#' ∉ b) (h' : '#' ∉ b') (e : b ++ '#' :: s = b' ++ '#' :: t) :
    b = b' ∧ s = t := by
  induction b generalizing b' with
  | nil =>
    cases b' with
    | nil => simp only [List.nil_append, List.cons.injEq, true_and] at e; exact ⟨rfl, e⟩
    | cons c b' =>
      simp only [List.nil_append, List.cons_append, List.cons.injEq] at e
      exact absurd (by rw [e.1]; exact List.mem_cons_self) h'
  | cons c b ih =>
    cases b' with
    | nil =>
      simp only [List.nil_append, List.cons_append, List.cons.injEq] at e
      exact absurd (by rw [e.1]; exact List.mem_cons_self) h
    | cons c' b' =>
      simp only [List.cons_append, List.cons.injEq] at e
      obtain ⟨e1, e2⟩ := ih (fun x => h (List.mem_cons_of_mem _ x)) (fun x => h' (List.mem_cons_of_mem _ x)) e.2
      exact ⟨by rw [e.1, e1], e2⟩

theorem saved_inj {b b' : Name} {i j : Nat} (h : '#' ∉ b) (h' : '#' ∉ b') (e : saved b i = saved b' j) :
    b = b' ∧ i = j := by
  obtain ⟨e1, e2⟩ := split_hash h h' e
  exact ⟨e1, natToChars_inj e2⟩

theorem hash_mem_saved (b : Name) (i : Nat) : '#' ∈ saved b i := by
  unfold saved; simp

theorem saved_ne {b c : Name} (i : Nat) (h : '#' ∉ c) : saved b i ≠ c :=
  fun e => h (e ▸ hash_mem_saved b i)

theorem loopVar_hash {x : Name} (h : '#' ∉ x) : '#' ∉ loopVar x := by
  unfold loopVar
  intro hm
  rcases List.mem_append.mp hm with h1 | h1
  · revert h1; decide
  · exact h h1

theorem loopVar_inj {x y : Name} (h : loopVar x = loopVar y) : x = y := List.append_cancel_left h

theorem loopVar_ne {x y : Name} (h : Plain y) : y ≠ loopVar x := by
  intro e
  exact h.2.2 ⟨x, by rw [e]; rfl⟩

/-- Every key is an ordinary name or a saved macro of depth below `d`. -/
def Clean (d : Nat) (m : MacroDb) : Prop :=
  ∀ key ∈ SMap.keys m, '#' ∉ key ∨ ∃ b i, '#' ∉ b ∧ key = saved b i ∧ i < d

theorem Clean.mono {d d' : Nat} {m : MacroDb} (h : Clean d m) (hd : d ≤ d') : Clean d' m := by
  intro key hk
  rcases h key hk with h | ⟨b, i, h1, h2, h3⟩
  · exact .inl h
  · exact .inr ⟨b, i, h1, h2, by omega⟩

theorem Clean.erase {d : Nat} {m : MacroDb} (h : Clean d m) (x : Name) : Clean d (SMap.erase x m) := by
  intro key hk
  exact h key ((SMap.mem_erase_keys x key m).mp hk).2

theorem Clean.insert {d : Nat} {m : MacroDb} (h : Clean d m) {x : Name} (hx : '#' ∉ x) (v : Val) :
    Clean d (SMap.insert x v m) := by
  intro key hk
  rcases (SMap.mem_insert_keys x key v m).mp hk with e | e
  · subst e; exact .inl hx
  · exact h key e

theorem Clean.insert_saved {d : Nat} {m : MacroDb} (h : Clean d m) {x : Name} (hx : '#' ∉ x) {i : Nat} (hi : i < d)
    (v : Val) : Clean d (SMap.insert (saved x i) v m) := by
  intro key hk
  rcases (SMap.mem_insert_keys (saved x i) key v m).mp hk with e | e
  · exact .inr ⟨x, i, hx, e, hi⟩
  · exact h key e

theorem depth_fold (b : Name) (ks : List Name) (acc : Option Nat) :
    (∀ k, ks.foldl (depthStep b) acc = some k →
      acc = some k ∨ ∃ s, (b ++ ['#']) ++ s ∈ ks ∧ atoiName s = k) ∧
    (∀ s, (b ++ ['#']) ++ s ∈ ks → ∃ k, ks.foldl (depthStep b) acc = some k ∧ atoiName s ≤ k) ∧
    (∀ a, acc = some a → ∃ k, ks.foldl (depthStep b) acc = some k ∧ a ≤ k) := by
  induction ks generalizing acc with
  | nil =>
    refine ⟨fun k h => .inl h, fun s h => absurd h (by simp), fun a h => ⟨a, h, Nat.le_refl a⟩⟩
  | cons key ks ih =>
    obtain ⟨h1, h2, h3⟩ := ih (depthStep b acc key)
    simp only [List.foldl_cons]
    have hs : ∀ a, acc = some a → ∃ k, depthStep b acc key = some k ∧ a ≤ k := by
      intro a ha
      subst ha
      unfold depthStep
      split
      · exact ⟨a, rfl, Nat.le_refl a⟩
      · rename_i s _
        by_cases hlt : a < atoiName s
        · exact ⟨_, if_pos hlt, by omega⟩
        · exact ⟨_, if_neg hlt, by omega⟩
    have hk : ∀ s, key = (b ++ ['#']) ++ s → ∃ k, depthStep b acc key = some k ∧ atoiName s ≤ k := by
      intro s e
      subst e
      unfold depthStep
      rw [dropPrefix_append]
      cases acc with
      | none => exact ⟨_, rfl, Nat.le_refl _⟩
      | some a =>
        by_cases hlt : a < atoiName s
        · exact ⟨_, if_pos hlt, by omega⟩
        · exact ⟨_, if_neg hlt, by omega⟩
    have hb : ∀ k, depthStep b acc key = some k → acc = some k ∨ ∃ s, key = (b ++ ['#']) ++ s ∧ atoiName s = k := by
      intro k hkk
      unfold depthStep at hkk
      split at hkk
      · exact .inl hkk
      · rename_i s hs'
        cases acc with
        | none => exact .inr ⟨s, dropPrefix_some hs', by simpa using hkk⟩
        | some a =>
          by_cases hlt : a < atoiName s
          · simp only [if_pos hlt] at hkk
            exact .inr ⟨s, dropPrefix_some hs', by simpa using hkk⟩
          · simp only [if_neg hlt] at hkk
            exact .inl hkk
    refine ⟨?_, ?_, ?_⟩
    · intro k hf
      rcases h1 k hf with h | ⟨s, hm, e⟩
      · rcases hb k h with h' | ⟨s, e, e'⟩
        · exact .inl h'
        · exact .inr ⟨s, by rw [e]; exact List.mem_cons_self, e'⟩
      · exact .inr ⟨s, List.mem_cons_of_mem _ hm, e⟩
    · intro s hm
      rcases List.mem_cons.mp hm with e | e
      · obtain ⟨k, hk1, hk2⟩ := hk s e.symm
        obtain ⟨k', h4, h5⟩ := h3 k hk1
        exact ⟨k', h4, by omega⟩
      · exact h2 s e
    · intro a ha
      obtain ⟨k, hk1, hk2⟩ := hs a ha
      obtain ⟨k', h4, h5⟩ := h3 k hk1
      exact ⟨k', h4, by omega⟩

theorem saved_eq (b : Name) (i : Nat) : saved b i = (b ++ ['#']) ++ natToChars i := by
  simp [saved]

/-- A saved macro lies at or below the depth. -/
theorem calcDepth_ge {m : MacroDb} {b : Name} {i : Nat} (h : m.find (saved b i) ≠ none) :
    ∃ k, calcDepth m b = some k ∧ i ≤ k := by
  have hm : saved b i ∈ SMap.keys m := by
    rw [SMap.mem_keys_iff]
    cases hf : m.find (saved b i) with
    | none => exact absurd hf h
    | some v => exact ⟨v, rfl⟩
  rw [saved_eq] at hm
  obtain ⟨k, h1, h2⟩ := (depth_fold b (SMap.keys m) none).2.1 _ hm
  rw [atoiName_natToChars] at h2
  exact ⟨k, h1, h2⟩

/-- The depth is that of a saved macro. -/
theorem calcDepth_some {d : Nat} {m : MacroDb} {b : Name} {k : Nat} (hc : Clean d m) (hb : '#' ∉ b)
    (h : calcDepth m b = some k) : ∃ v, m.find (saved b k) = some v ∧ k < d := by
  rcases (depth_fold b (SMap.keys m) none).1 k h with h | ⟨s, hm, e⟩
  · cases h
  · rcases hc _ hm with h' | ⟨b', i, h1, h2, h3⟩
    · exact absurd (by simp) h'
    · have e2 : b ++ '#' :: s = b' ++ '#' :: natToChars i := by
        have := h2
        simp only [List.append_assoc, List.singleton_append, saved] at this
        exact this
      obtain ⟨e3, e4⟩ := split_hash hb h1 e2
      subst e3
      subst e4
      rw [atoiName_natToChars] at e
      subst e
      obtain ⟨v, hv⟩ := (SMap.mem_keys_iff _ m).mp hm
      exact ⟨v, by rw [saved_eq]; exact hv, h3⟩

/-- Nothing is saved from the next depth on. -/
theorem find_saved_above {m : MacroDb} {b : Name} {i : Nat} (h : nextDepth (calcDepth m b) ≤ i) :
    m.find (saved b i) = none := by
  apply Decidable.byContradiction
  intro hn
  obtain ⟨k, h1, h2⟩ := calcDepth_ge hn
  rw [h1] at h
  simp only [nextDepth] at h
  omega

theorem nextDepth_le {d : Nat} {m : MacroDb} {b : Name} (hc : Clean d m) (hb : '#' ∉ b) :
    nextDepth (calcDepth m b) ≤ d := by
  cases h : calcDepth m b with
  | none => simp [nextDepth]
  | some k =>
    obtain ⟨v, _, hv⟩ := calcDepth_some hc hb h
    simp only [nextDepth]; omega

/-- The depth only depends on the saved macros of the name. -/
theorem calcDepth_eq {d : Nat} {m : MacroDb} {b : Name} (hc : Clean d m) (hb : '#' ∉ b) {r : Option Nat}
    (h0 : ∀ k, r = some k → m.find (saved b k) ≠ none)
    (h1 : ∀ i, nextDepth r ≤ i → m.find (saved b i) = none) : calcDepth m b = r := by
  cases h : calcDepth m b with
  | none =>
    cases r with
    | none => rfl
    | some k =>
      obtain ⟨k', h2, _⟩ := calcDepth_ge (h0 k rfl)
      rw [h] at h2; cases h2
  | some k =>
    obtain ⟨v, hv, _⟩ := calcDepth_some hc hb h
    have hlt : k < nextDepth r := by
      apply Decidable.byContradiction
      intro hn
      rw [h1 k (by omega)] at hv; cases hv
    cases r with
    | none => simp [nextDepth] at hlt
    | some k' =>
      obtain ⟨k2, h2, h3⟩ := calcDepth_ge (h0 k' rfl)
      rw [h] at h2
      cases h2
      simp only [nextDepth] at hlt
      rw [show k = k' by omega]

/-- The effect of `RP_define_save`. -/
structure Pushed (m0 : MacroDb) (b : Name) (m1 : MacroDb) : Prop where
  other : ∀ k, k ≠ saved b (nextDepth (calcDepth m0 b)) → m1.find k = m0.find k
  top : m1.find (saved b (nextDepth (calcDepth m0 b))) = m0.find b

theorem save_ok {d d' : Nat} {m0 : MacroDb} {b : Name} (hc : Clean d' m0) (hb : '#' ∉ b)
    (hle : nextDepth (calcDepth m0 b) ≤ d) (hd : d < d') (hs : ShortFor d b) :
    ∃ m1, save m0 b = .ok m1 ∧ Pushed m0 b m1 ∧ Clean d' m1 := by
  cases hf : m0.find b with
  | none =>
    refine ⟨m0, by unfold save; rw [hf], ⟨fun k _ => rfl, ?_⟩, hc⟩
    rw [hf]
    exact find_saved_above (Nat.le_refl _)
  | some v =>
    refine ⟨m0.insert (saved b (nextDepth (calcDepth m0 b))) v, ?_, ⟨?_, ?_⟩, ?_⟩
    · unfold save; rw [hf]
      simp only [define1]
      rw [if_pos (hs _ hle)]
    · intro k hk; exact SMap.find_insert_ne v m0 hk
    · rw [hf]; exact SMap.find_insert_self _ v m0
    · exact hc.insert_saved hb (by omega) v

/-- The effect of `RP_define_restore` after a save of the same macro, if its saved copies were left alone. -/
theorem restore_ok {d' : Nat} {m0 m1 m2 : MacroDb} {b : Name} (hb : '#' ∉ b)
    (hn : checkName .objects b = true) (hstack : ∀ i, m0.find (saved b i) ≠ none → m0.find b ≠ none)
    (hp : Pushed m0 b m1) (hc2 : Clean d' m2) (hsame : ∀ i, m2.find (saved b i) = m1.find (saved b i)) :
    ∃ m3, restore m2 b = .ok m3 ∧ m3.find b = m0.find b ∧ (∀ i, m3.find (saved b i) = m0.find (saved b i)) ∧
      (∀ k, k ≠ b → (∀ i, k ≠ saved b i) → m3.find k = m2.find k) ∧ Clean d' m3 := by
  have hc3 : Clean d' (undef1 m2 b) := hc2.erase b
  have hfe : ∀ k, k ≠ b → (undef1 m2 b).find k = m2.find k := fun k hk => by
    unfold undef1; rw [SMap.find_erase, if_neg hk]
  have hsame' : ∀ i, (undef1 m2 b).find (saved b i) = m1.find (saved b i) := fun i => by
    rw [hfe _ (saved_ne i hb)]; exact hsame i
  have hm1 : ∀ i, i ≠ nextDepth (calcDepth m0 b) → m1.find (saved b i) = m0.find (saved b i) := fun i hi =>
    hp.other _ (fun e => hi (saved_inj hb hb e).2)
  cases hf : m0.find b with
  | none =>
    have hnone : ∀ i, m0.find (saved b i) = none := fun i => by
      apply Decidable.byContradiction
      intro h; exact hstack i h hf
    have hall : ∀ i, (undef1 m2 b).find (saved b i) = none := fun i => by
      rw [hsame' i]
      by_cases e : i = nextDepth (calcDepth m0 b)
      · rw [e, hp.top, hf]
      · rw [hm1 i e]; exact hnone i
    have hd : calcDepth (undef1 m2 b) b = none :=
      calcDepth_eq hc3 hb (fun k h => by cases h) (fun i _ => hall i)
    refine ⟨undef1 m2 b, by unfold restore; rw [hd], ?_, fun i => by rw [hall i, hnone i], fun k hk _ => hfe k hk, hc3⟩
    unfold undef1; rw [SMap.find_erase, if_pos rfl]
  | some v =>
    have hd : calcDepth (undef1 m2 b) b = some (nextDepth (calcDepth m0 b)) := by
      apply calcDepth_eq hc3 hb
      · intro k hk
        cases hk
        rw [hsame', hp.top, hf]; simp
      · intro i hi
        have hi : nextDepth (calcDepth m0 b) + 1 ≤ i := hi
        rw [hsame', hm1 i (by omega)]
        exact find_saved_above (by omega)
    refine ⟨undef1 ((undef1 m2 b).insert b v) (saved b (nextDepth (calcDepth m0 b))), ?_, ?_, ?_, ?_, ?_⟩
    · unfold restore
      rw [hd]
      simp only
      rw [hsame', hp.top, hf]
      simp only [define1]
      rw [if_pos hn]
      rfl
    · unfold undef1
      rw [SMap.find_erase, if_neg (saved_ne _ hb).symm, SMap.find_insert_self]
    · intro i
      unfold undef1
      rw [SMap.find_erase]
      split
      · rename_i e
        rw [e]
        exact (find_saved_above (Nat.le_refl _)).symm
      · rename_i e
        rw [SMap.find_insert_ne _ _ (saved_ne i hb)]
        have := hsame' i
        unfold undef1 at this
        rw [this]
        exact hm1 i (fun e' => e (by rw [e']))
    · intro k hk hk2
      show (SMap.erase _ (SMap.insert b v (undef1 m2 b))).find k = _
      rw [SMap.find_erase, if_neg (hk2 _), SMap.find_insert_ne _ _ hk]
      exact hfe k hk
    · exact (hc3.insert hb v).erase _

theorem save_other {m0 m1 : MacroDb} {b : Name} (hp : Pushed m0 b m1) {k : Name} (h : ∀ i, k ≠ saved b i) :
    m1.find k = m0.find k := hp.other k (h _)

theorem calcDepth_congr {d d' : Nat} {m m' : MacroDb} {b : Name} (hc : Clean d m) (hc' : Clean d' m') (hb : '#' ∉ b)
    (h : ∀ i, m'.find (saved b i) = m.find (saved b i)) : calcDepth m' b = calcDepth m b := by
  apply calcDepth_eq hc' hb
  · intro k hk
    obtain ⟨v, hv, _⟩ := calcDepth_some hc hb hk
    rw [h, hv]; simp
  · intro i hi
    rw [h]; exact find_saved_above hi

/-- The effect of `RP_define_save_list`. -/
inductive PushedAll : MacroDb → List Name → MacroDb → Prop where
  | nil {m} : PushedAll m [] m
  | cons {m p m' ps m1} : Pushed m p m' → PushedAll m' ps m1 → PushedAll m (p :: ps) m1

theorem PushedAll.other {m : MacroDb} {ps : List Name} {m1 : MacroDb} (h : PushedAll m ps m1) {k : Name}
    (hk : ∀ b ∈ ps, ∀ i, k ≠ saved b i) : m1.find k = m.find k := by
  induction h with
  | nil => rfl
  | cons h1 _ ih =>
    rw [ih (fun b hb => hk b (List.mem_cons_of_mem _ hb))]
    exact save_other h1 (hk _ List.mem_cons_self)

theorem saveList_ok {d d' : Nat} {ps : List Name} {m0 : MacroDb} (hc : Clean d' m0) (hnd : ps.Nodup)
    (hps : ∀ b ∈ ps, '#' ∉ b ∧ nextDepth (calcDepth m0 b) ≤ d ∧ ShortFor d b) (hd : d < d') :
    ∃ m1, saveList m0 ps = .ok m1 ∧ PushedAll m0 ps m1 ∧ Clean d' m1 := by
  induction ps generalizing m0 with
  | nil => exact ⟨m0, rfl, .nil, hc⟩
  | cons p ps ih =>
    obtain ⟨hp1, hp2, hp3⟩ := hps p List.mem_cons_self
    obtain ⟨m', h1, h2, h3⟩ := save_ok hc hp1 hp2 hd hp3
    have hnd' := List.nodup_cons.mp hnd
    obtain ⟨m1, h4, h5, h6⟩ := ih h3 hnd'.2 (fun b hb => by
      obtain ⟨q1, q2, q3⟩ := hps b (List.mem_cons_of_mem _ hb)
      refine ⟨q1, ?_, q3⟩
      rw [calcDepth_congr hc h3 q1 (fun i => save_other h2 (fun j e => ?_))]
      · exact q2
      · exact hnd'.1 ((saved_inj q1 hp1 e).1 ▸ hb))
    refine ⟨m1, ?_, .cons h2 h5, h6⟩
    unfold saveList
    rw [h1]
    exact h4

theorem restoreList_ok {d' : Nat} {ps : List Name} {m0 m1 m2 : MacroDb} (hnd : ps.Nodup)
    (hps : ∀ b ∈ ps, '#' ∉ b ∧ checkName .objects b = true)
    (hstack : ∀ b ∈ ps, ∀ i, m0.find (saved b i) ≠ none → m0.find b ≠ none)
    (hp : PushedAll m0 ps m1) (hc2 : Clean d' m2)
    (hsame : ∀ b ∈ ps, ∀ i, m2.find (saved b i) = m1.find (saved b i)) :
    ∃ m3, restoreList m2 ps = .ok m3 ∧
      (∀ b ∈ ps, m3.find b = m0.find b ∧ ∀ i, m3.find (saved b i) = m0.find (saved b i)) ∧
      (∀ k, k ∉ ps → (∀ b ∈ ps, ∀ i, k ≠ saved b i) → m3.find k = m2.find k) ∧ Clean d' m3 := by
  induction hp generalizing m2 with
  | nil => exact ⟨m2, rfl, fun b hb => absurd hb (by simp), fun k _ _ => rfl, hc2⟩
  | @cons m p m' ps m1 h1 h2 ih =>
    obtain ⟨hp1, hp2⟩ := hps p List.mem_cons_self
    have hnd' := List.nodup_cons.mp hnd
    have hne : ∀ b ∈ ps, b ≠ p := fun b hb e => hnd'.1 (e ▸ hb)
    have hns : ∀ b ∈ ps, ∀ i j, saved b i ≠ saved p j := fun b hb i j e =>
      hne b hb (saved_inj (hps b (List.mem_cons_of_mem _ hb)).1 hp1 e).1
    obtain ⟨m3, r1, r2, r3, r4, r5⟩ := restore_ok hp1 hp2 (hstack p List.mem_cons_self) h1 hc2 (fun i => by
      rw [hsame p List.mem_cons_self i]
      exact h2.other (fun b hb j e => hns b hb j i e.symm))
    have hm'find : ∀ b ∈ ps, m'.find b = m.find b := fun b hb =>
      save_other h1 (fun i e => saved_ne i (hps b (List.mem_cons_of_mem _ hb)).1 e.symm)
    have hm'saved : ∀ b ∈ ps, ∀ i, m'.find (saved b i) = m.find (saved b i) := fun b hb i =>
      save_other h1 (fun j => hns b hb i j)
    obtain ⟨m4, s1, s2, s3, s4⟩ := ih (m2 := m3) hnd'.2 (fun b hb => hps b (List.mem_cons_of_mem _ hb))
      (fun b hb i h => by
        rw [hm'find b hb]
        rw [hm'saved b hb] at h
        exact hstack b (List.mem_cons_of_mem _ hb) i h)
      r5
      (fun b hb i => by
        rw [r4 _ (saved_ne i hp1) (fun j => hns b hb i j)]
        exact hsame b (List.mem_cons_of_mem _ hb) i)
    refine ⟨m4, ?_, ?_, ?_, s4⟩
    · unfold restoreList
      rw [r1]
      exact s1
    · intro b hb
      rcases List.mem_cons.mp hb with e | e
      · subst e
        refine ⟨?_, fun i => ?_⟩
        · rw [s3 b hnd'.1 (fun c hc i e => saved_ne i hp1 e.symm)]
          exact r2
        · rw [s3 _ (fun hm => saved_ne i (hps _ (List.mem_cons_of_mem _ hm)).1 rfl)
            (fun c hc j e => hns c hc j i e.symm)]
          exact r3 i
      · obtain ⟨t1, t2⟩ := s2 b e
        exact ⟨by rw [t1, hm'find b e], fun i => by rw [t2 i, hm'saved b e i]⟩
    · intro k hk hk2
      rw [s3 k (fun h => hk (List.mem_cons_of_mem _ h)) (fun b hb => hk2 b (List.mem_cons_of_mem _ hb))]
      exact r4 k (fun e => hk (e ▸ List.mem_cons_self)) (hk2 p List.mem_cons_self)

end Iode.Macros
