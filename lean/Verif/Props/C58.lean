import Verif.Model.StepWise
import Verif.Spec.StepWise
import Verif.Lemmas.SMap
import Mathlib.Data.List.Sublists
import Mathlib.Tactic.NormNum
import Mathlib.Tactic.Linarith
import Mathlib.Algebra.Order.Ring.Rat

/-! # C58: the choice of the coefficients of an equation -/
namespace Iode.StepWise.C58

open Iode.StepWise Iode.Spec.StepWise Iode.EstPrep Iode.Lec

variable {K : Type} [Field K] [LinearOrder K]

/-- The names chosen in round `i`. -/
def chosen (i : Nat) : Nat → List Name → List Name
  | _, [] => []
  | j, x :: xs => if i.testBit j then x :: chosen i (j + 1) xs else chosen i (j + 1) xs

theorem chosen_sub (i : Nat) : ∀ (j : Nat) (ns : List Name), List.Sublist (chosen i j ns) ns
  | _, [] => List.Sublist.refl _
  | j, x :: xs => by
    rw [chosen]
    split
    · exact (chosen_sub i (j + 1) xs).cons_cons x
    · exact (chosen_sub i (j + 1) xs).cons x

theorem chosen_shift (i : Nat) : ∀ (j : Nat) (ns : List Name), chosen i (j + 1) ns = chosen (i / 2) j ns
  | _, [] => rfl
  | j, x :: xs => by
    rw [chosen, chosen, chosen_shift i (j + 1) xs, Nat.testBit_succ]

theorem chosen_all : ∀ {ns A : List Name}, List.Sublist A ns → ∃ i, i < 2 ^ ns.length ∧ chosen i 0 ns = A
  | _, _, .slnil => ⟨0, by simp, rfl⟩
  | _, _, .cons (l₂ := xs) x h => by
    obtain ⟨i, hi, hc⟩ := chosen_all h
    refine ⟨2 * i, by rw [List.length_cons, pow_succ]; omega, ?_⟩
    rw [chosen, chosen_shift, if_neg (by simp)]
    rw [show 2 * i / 2 = i by omega]; exact hc
  | _, _, .cons_cons (l₂ := xs) x h => by
    obtain ⟨i, hi, hc⟩ := chosen_all h
    refine ⟨2 * i + 1, by rw [List.length_cons, pow_succ]; omega, ?_⟩
    rw [chosen, chosen_shift, if_pos (by simp)]
    rw [show (2 * i + 1) / 2 = i by omega, hc]

theorem chosen_zero : ∀ (j : Nat) (ns : List Name), chosen 0 j ns = []
  | _, [] => rfl
  | j, x :: xs => by rw [chosen, if_neg (by simp), chosen_zero]

/-- The text made of some names, each one followed by a space. -/
def textLen (ns : List Name) : Nat := (ns.map fun x => x.length + 1).sum

theorem textLen_sub : ∀ {A ns : List Name}, List.Sublist A ns → textLen A ≤ textLen ns
  | _, _, .slnil => Nat.le_refl _
  | _, _, .cons x h => by have := textLen_sub h; simp only [textLen, List.map_cons, List.sum_cons] at *; omega
  | _, _, .cons_cons x h => by have := textLen_sub h; simp only [textLen, List.map_cons, List.sum_cons] at *; omega

theorem setAll_ok (i : Nat) : ∀ (j : Nat) (ns : List Name) (m : SMap (Scl K)) (n b : Nat), ns.Nodup →
    (∀ x ∈ ns, (m.find x).isSome = true) → b + textLen (chosen i j ns) ≤ 511 →
    ∃ m', setAll i j ns m n b = .ok (m', n + (chosen i j ns).length) ∧ Configured ns (chosen i j ns) m' ∧
      ∀ x, x ∉ ns → m'.find x = m.find x
  | _, [], m, n, _, _, _, _ => ⟨m, rfl, fun x hx => (by cases hx), fun _ _ => rfl⟩
  | j, x :: xs, m, n, b, hnd, hex, hb => by
    have hxs : x ∉ xs := (List.nodup_cons.1 hnd).1
    obtain ⟨v, hv⟩ := Option.isSome_iff_exists.1 (hex x List.mem_cons_self)
    have hex' : ∀ s, ∀ y ∈ xs, ((m.insert x s).find y).isSome = true := by
      intro s y hy
      rw [SMap.find_insert]
      split
      · rfl
      · exact hex y (List.mem_cons_of_mem _ hy)
    have hsub := (chosen_sub i (j + 1) xs).subset
    rw [setAll]
    rw [chosen] at hb ⊢
    by_cases ht : i.testBit j = true
    · rw [if_pos ht] at hb ⊢
      rw [if_pos ht]
      simp only [textLen, List.map_cons, List.sum_cons] at hb
      obtain ⟨m', h1, h2, h3⟩ := setAll_ok i (j + 1) xs (m.insert x ⟨9 / 10, 1⟩) (n + 1) (b + x.length + 1) (List.nodup_cons.1 hnd).2
        (hex' _) (by simp only [textLen]; omega)
      refine ⟨m', ?_, ?_, ?_⟩
      · rw [setScl, hv]
        simp only [Res.bind, if_true]
        rw [if_neg (by omega), h1]
        congr 2
        rw [List.length_cons]; omega
      · intro y hy
        rcases List.mem_cons.1 hy with rfl | hy'
        · refine ⟨fun _ => ?_, fun h => absurd List.mem_cons_self h⟩
          rw [h3 y hxs, SMap.find_insert, if_pos rfl]
        · have hne : y ≠ x := by rintro rfl; exact hxs hy'
          refine ⟨fun h => (h2 y hy').1 ?_, fun h => (h2 y hy').2 fun hc => h (List.mem_cons_of_mem _ hc)⟩
          rcases List.mem_cons.1 h with h | h
          · exact absurd h hne
          · exact h
      · intro y hy
        rw [h3 y (fun h => hy (List.mem_cons_of_mem _ h)), SMap.find_insert, if_neg]
        rintro rfl; exact hy List.mem_cons_self
    · rw [if_neg ht] at hb ⊢
      rw [if_neg ht]
      obtain ⟨m', h1, h2, h3⟩ := setAll_ok i (j + 1) xs (m.insert x ⟨0, 0⟩) n b (List.nodup_cons.1 hnd).2 (hex' _) hb
      refine ⟨m', ?_, ?_, ?_⟩
      · rw [setScl, hv]
        simp only [Res.bind, Bool.false_eq_true, if_false]
        exact h1
      · intro y hy
        rcases List.mem_cons.1 hy with rfl | hy
        · refine ⟨fun h => absurd (hsub h) hxs, fun _ => ?_⟩
          rw [h3 y hxs, SMap.find_insert, if_pos rfl]
        · exact h2 y hy
      · intro y hy
        rw [h3 y (fun h => hy (List.mem_cons_of_mem _ h)), SMap.find_insert, if_neg]
        rintro rfl; exact hy List.mem_cons_self

section
variable {est : SMap (Scl K) → SMap (Scl K)} {cond : SMap (Scl K) → K} {test : Name} {ns : List Name}
  {Inv : SMap (Scl K) → Prop} {T : List Name → K} {C : List Name → Prop}

theorem configured_some {A : List Name} {m : SMap (Scl K)} (h : Configured ns A m) : ∀ x ∈ ns, (m.find x).isSome = true := by
  intro x hx
  by_cases hA : x ∈ A
  · rw [(h x hx).1 hA]; rfl
  · rw [(h x hx).2 hA]; rfl

theorem run_ok (hr : Repeatable est cond test ns Inv T C) (hnd : ns.Nodup) (hb : textLen ns ≤ 511) (i : Nat) {m : SMap (Scl K)}
    (hi : Inv m) (hex : ∀ x ∈ ns, (m.find x).isSome = true) :
    ∃ m1, Inv m1 ∧ Configured ns (chosen i 0 ns) m1 ∧
      (2 ≤ (chosen i 0 ns).length → run est test ns i m = .ok (T (chosen i 0 ns), est m1)) ∧
      ((chosen i 0 ns).length < 2 → run est test ns i m = .ok (0, m1)) := by
  have hsub := chosen_sub i 0 ns
  obtain ⟨m1, h1, h2, h3⟩ := setAll_ok i 0 ns m 0 0 hnd hex (by have := textLen_sub hsub; omega)
  have hi1 : Inv m1 := hr.other m m1 hi h3
  refine ⟨m1, hi1, h2, fun h => ?_, fun h => ?_⟩
  · obtain ⟨s, hs, hv⟩ := hr.test m1 _ hi1 hsub h h2
    rw [run, h1]
    simp only [Res.bind]
    rw [if_pos (by omega), hs]
    simp only [hv]
  · rw [run, h1]
    simp only [Res.bind]
    rw [if_neg (by omega)]

/-- The best of the rounds before round `k`. -/
def Best (ns : List Name) (T : List Name → K) (C : List Name → Prop) (k li : Nat) (l : K) : Prop :=
  (li = 0 ∧ l = -999999999999 ∧ ∀ i, 1 ≤ i → i < k → ¬ Eligible ns T C (chosen i 0 ns)) ∨
  (Eligible ns T C (chosen li 0 ns) ∧ l = T (chosen li 0 ns) ∧
    ∀ i, 1 ≤ i → i < k → Eligible ns T C (chosen i 0 ns) → T (chosen i 0 ns) ≤ l)

theorem loop_ok (hr : Repeatable est cond test ns Inv T C) (hnd : ns.Nodup) (hb : textLen ns ≤ 511) :
    ∀ (c i li : Nat) (l : K) (m : SMap (Scl K)), Inv m → (∀ x ∈ ns, (m.find x).isSome = true) → Best ns T C i li l →
    ∃ li' l' m', loop est cond test ns c i li l m = .ok (li', l', m') ∧ Inv m' ∧ (∀ x ∈ ns, (m'.find x).isSome = true) ∧
      Best ns T C (i + c) li' l'
  | 0, i, li, l, m, hi, hex, hbest => ⟨li, l, m, rfl, hi, hex, hbest⟩
  | c + 1, i, li, l, m, hi, hex, hbest => by
    obtain ⟨m1, hi1, hc1, hbig, hsmall⟩ := run_ok hr hnd hb i hi hex
    have hsub := chosen_sub i 0 ns
    have hlow : -999999999999 ≤ l := by
      rcases hbest with ⟨-, h, -⟩ | ⟨⟨-, -, -, -, h⟩, h', -⟩
      · rw [h]
      · rw [h']; exact le_of_lt h
    rw [loop, show i + (c + 1) = i + 1 + c by omega]
    by_cases h2 : 2 ≤ (chosen i 0 ns).length
    · rw [hbig h2]
      simp only [Res.bind]
      obtain ⟨hk1, hk2⟩ := hr.keep m1 _ hi1 hsub h2 hc1
      have hcond := hr.cond m1 _ hi1 hsub h2 hc1
      by_cases hacc : l < T (chosen i 0 ns) ∧ cond (est m1) ≠ 0 ∧ T (chosen i 0 ns) ≠ 0
      · rw [if_pos hacc]
        apply loop_ok hr hnd hb c (i + 1) i _ _ hk1 hk2
        refine Or.inr ⟨⟨hsub, h2, hcond.1 hacc.2.1, hacc.2.2, lt_of_le_of_lt hlow hacc.1⟩, rfl, fun k hk1 hk2 he => ?_⟩
        by_cases hki : k = i
        · rw [hki]
        · rcases hbest with ⟨-, -, hn⟩ | ⟨-, -, hn⟩
          · exact absurd he (hn k hk1 (by omega))
          · exact le_trans (hn k hk1 (by omega) he) (le_of_lt hacc.1)
      · rw [if_neg hacc]
        apply loop_ok hr hnd hb c (i + 1) li l _ hk1 hk2
        have key : Eligible ns T C (chosen i 0 ns) → T (chosen i 0 ns) ≤ l := by
          rintro ⟨-, -, h3, h4, -⟩
          by_contra hlt
          exact hacc ⟨not_le.1 hlt, hcond.2 h3, h4⟩
        rcases hbest with ⟨ha, hb', hn⟩ | ⟨ha, hb', hn⟩
        · refine Or.inl ⟨ha, hb', fun k hk1 hk2 he => ?_⟩
          by_cases hki : k = i
          · rw [hki] at he
            have := key he
            rw [hb'] at this
            exact absurd he.2.2.2.2 (not_lt.2 this)
          · exact hn k hk1 (by omega) he
        · refine Or.inr ⟨ha, hb', fun k hk1 hk2 he => ?_⟩
          by_cases hki : k = i
          · rw [hki] at he ⊢; exact key he
          · exact hn k hk1 (by omega) he
    · rw [hsmall (by omega)]
      simp only [Res.bind]
      rw [if_neg (by simp)]
      apply loop_ok hr hnd hb c (i + 1) li l _ hi1 (configured_some hc1)
      rcases hbest with ⟨ha, hb', hn⟩ | ⟨ha, hb', hn⟩
      · refine Or.inl ⟨ha, hb', fun k hk1 hk2 he => ?_⟩
        by_cases hki : k = i
        · rw [hki] at he; exact h2 he.2.1
        · exact hn k hk1 (by omega) he
      · refine Or.inr ⟨ha, hb', fun k hk1 hk2 he => ?_⟩
        by_cases hki : k = i
        · rw [hki] at he; exact absurd he.2.1 h2
        · exact hn k hk1 (by omega) he

theorem step_ok (hr : Repeatable est cond test ns Inv T C) (hnd : ns.Nodup) (hb : textLen ns ≤ 511) (h31 : ns.length < 31)
    {objs : List Name} {m : SMap (Scl K)} (hg : getScls m objs = .ok ns) (hi : Inv m) (hex : ∀ x ∈ ns, (m.find x).isSome = true) :
    ∃ li m1, Inv m1 ∧ Configured ns (chosen li 0 ns) m1 ∧
      ((li = 0 ∧ (∀ A, ¬ Eligible ns T C A) ∧ stepWise est cond test objs m = .ok (0, m1)) ∨
       (Eligible ns T C (chosen li 0 ns) ∧ (∀ A, Eligible ns T C A → T A ≤ T (chosen li 0 ns)) ∧
          stepWise est cond test objs m = .ok (T (chosen li 0 ns), est m1))) := by
  obtain ⟨li, l, m', h1, h2, h3, h4⟩ := loop_ok hr hnd hb (2 ^ ns.length - 1) 1 0 (-999999999999) m hi hex
    (Or.inl ⟨rfl, rfl, fun i h h' => by omega⟩)
  have hpos : 0 < 2 ^ ns.length := Nat.pos_of_ne_zero (by simp)
  rw [show 1 + (2 ^ ns.length - 1) = 2 ^ ns.length by omega] at h4
  obtain ⟨m1, hi1, hc1, hbig, hsmall⟩ := run_ok hr hnd hb li h2 h3
  have hst : stepWise est cond test objs m = run est test ns li m' := by
    rw [stepWise, hg]
    simp only [Res.bind]
    rw [if_neg (by omega), h1]
  have hidx : ∀ A, Eligible ns T C A → ∃ i, 1 ≤ i ∧ i < 2 ^ ns.length ∧ chosen i 0 ns = A := by
    intro A hA
    obtain ⟨i, hi, hc⟩ := chosen_all hA.1
    refine ⟨i, ?_, hi, hc⟩
    rcases Nat.eq_zero_or_pos i with rfl | h
    · rw [chosen_zero] at hc
      have := hA.2.1
      rw [← hc] at this; simp at this
    · exact h
  refine ⟨li, m1, hi1, hc1, ?_⟩
  rcases h4 with ⟨ha, -, hn⟩ | ⟨ha, hb', hn⟩
  · refine Or.inl ⟨ha, fun A hA => ?_, ?_⟩
    · obtain ⟨i, hi1, hi2, hc⟩ := hidx A hA
      rw [← hc] at hA
      exact hn i hi1 hi2 hA
    · rw [hst, hsmall (by rw [ha, chosen_zero]; simp)]
  · refine Or.inr ⟨ha, fun A hA => ?_, ?_⟩
    · obtain ⟨i, hi1, hi2, hc⟩ := hidx A hA
      rw [← hc] at hA ⊢
      rw [← hb']
      exact hn i hi1 hi2 hA
    · rw [hst, hbig ha.2.1]

/-- The names of the scalars of an equation. -/
theorem getScls_ok {m : SMap (Scl K)} : ∀ {objs ns : List Name}, getScls m objs = .ok ns →
    ns = objs.filter (fun x => isCoef x && decide (((m.find x).map Scl.relax).getD 0 ≠ 0)) ∧ ∀ x ∈ ns, (m.find x).isSome = true
  | [], ns, h => by rw [getScls] at h; cases h; simp
  | x :: xs, ns, h => by
    rw [getScls] at h
    by_cases hc : isCoef x = true
    · rw [if_pos hc] at h
      cases hf : m.find x with
      | none => rw [hf] at h; cases h
      | some s =>
        rw [hf] at h
        simp only at h
        by_cases hs : s.relax ≠ 0
        · rw [if_pos hs] at h
          cases hg : getScls m xs with
          | err => rw [hg] at h; cases h
          | ub => rw [hg] at h; cases h
          | ok r =>
            rw [hg] at h
            cases h
            obtain ⟨h1, h2⟩ := getScls_ok hg
            refine ⟨?_, fun y hy => ?_⟩
            · rw [List.filter_cons_of_pos (by simp [hc, hf, hs]), ← h1]
            · rcases List.mem_cons.1 hy with rfl | hy
              · rw [hf]; rfl
              · exact h2 y hy
        · rw [if_neg hs] at h
          obtain ⟨h1, h2⟩ := getScls_ok h
          exact ⟨by rw [List.filter_cons_of_neg (by simpa [hc, hf] using hs)]; exact h1, h2⟩
    · rw [if_neg hc] at h
      obtain ⟨h1, h2⟩ := getScls_ok h
      exact ⟨by rw [List.filter_cons_of_neg (by simp [hc])]; exact h1, h2⟩

end

/-- The coefficients of an equation that may be chosen: those with a relaxation other than 0. -/
def candidates (m : SMap (Scl K)) (objs : List Name) : List Name :=
  objs.filter fun x => isCoef x && decide (((m.find x).map Scl.relax).getD 0 ≠ 0)

theorem getScls_some {m : SMap (Scl K)} : ∀ {objs : List Name}, (∀ x ∈ objs, isCoef x = true → (m.find x).isSome = true) →
    getScls m objs = .ok (candidates m objs)
  | [], _ => rfl
  | x :: xs, h => by
    have ih := getScls_some (m := m) fun y hy => h y (List.mem_cons_of_mem x hy)
    rw [getScls]
    by_cases hc : isCoef x = true
    · obtain ⟨s, hs⟩ := Option.isSome_iff_exists.1 (h x List.mem_cons_self hc)
      rw [if_pos hc, hs, ih]
      simp only [Res.bind]
      by_cases h0 : s.relax ≠ 0
      · rw [if_pos h0, candidates, candidates, List.filter_cons_of_pos (by simp [hc, hs, h0])]
      · rw [if_neg h0, candidates, candidates, List.filter_cons_of_neg (by simpa [hc, hs] using h0)]
    · rw [if_neg hc, ih, candidates, candidates, List.filter_cons_of_neg (by simp [hc])]

section
variable {est : SMap (Scl K) → SMap (Scl K)} {cond : SMap (Scl K) → K} {test : Name} {objs : List Name} {m : SMap (Scl K)}
  {Inv : SMap (Scl K) → Prop} {T : List Name → K} {C : List Name → Prop}

/-- **C58** Of all the combinations of two coefficients or more that meet the condition and whose test is not 0, one with the largest test
    is estimated last: the test returned and the scalars left are its own. -/
theorem C58_best_partial (hr : Repeatable est cond test (candidates m objs) Inv T C) (hnd : objs.Nodup)
    (hex : ∀ x ∈ objs, isCoef x = true → (m.find x).isSome = true) (hb : textLen (candidates m objs) ≤ 511)
    (h31 : (candidates m objs).length < 31) (hi : Inv m) (he : ∃ A, Eligible (candidates m objs) T C A) :
    ∃ A m1, Eligible (candidates m objs) T C A ∧ (∀ B, Eligible (candidates m objs) T C B → T B ≤ T A) ∧
      Inv m1 ∧ Configured (candidates m objs) A m1 ∧ stepWise est cond test objs m = .ok (T A, est m1) := by
  have hg := getScls_some hex
  obtain ⟨li, m1, h1, h2, h3⟩ := step_ok hr (hnd.filter _) hb h31 hg hi (getScls_ok hg).2
  rcases h3 with ⟨-, hn, -⟩ | ⟨ha, hn, hs⟩
  · obtain ⟨A, hA⟩ := he
    exact absurd hA (hn A)
  · exact ⟨_, m1, ha, hn, h1, h2, hs⟩

/-- **C58** When no combination will do, the result is 0 and all the coefficients are left at 0, not to be estimated any more. -/
theorem C58_none_partial (hr : Repeatable est cond test (candidates m objs) Inv T C) (hnd : objs.Nodup)
    (hex : ∀ x ∈ objs, isCoef x = true → (m.find x).isSome = true) (hb : textLen (candidates m objs) ≤ 511)
    (h31 : (candidates m objs).length < 31) (hi : Inv m) (he : ∀ A, ¬ Eligible (candidates m objs) T C A) :
    ∃ m1, stepWise est cond test objs m = .ok (0, m1) ∧ Inv m1 ∧ ∀ x ∈ candidates m objs, m1.find x = some ⟨0, 0⟩ := by
  have hg := getScls_some hex
  obtain ⟨li, m1, h1, h2, h3⟩ := step_ok hr (hnd.filter _) hb h31 hg hi (getScls_ok hg).2
  rcases h3 with ⟨h0, -, hs⟩ | ⟨ha, -, -⟩
  · refine ⟨m1, hs, h1, fun x hx => (h2 x hx).2 ?_⟩
    rw [h0, chosen_zero]; simp
  · exact absurd ha (he _)

/-- **C58** A coefficient that does not exist: nothing is done. -/
theorem C58_missing (est : SMap (Scl K) → SMap (Scl K)) (cond : SMap (Scl K) → K) (test : Name) {x : Name} (hx : x ∈ objs)
    (hc : isCoef x = true) (hn : m.find x = none) : stepWise est cond test objs m = .err := by
  have : ∀ {l : List Name}, x ∈ l → getScls m l = .err := by
    intro l
    induction l with
    | nil => intro h; cases h
    | cons y ys ih =>
      intro h
      rw [getScls]
      by_cases hxy : x = y
      · subst hxy
        rw [if_pos hc, hn]
      · have hys : x ∈ ys := (List.mem_cons.1 h).resolve_left hxy
        split
        · split
          · rfl
          · split
            · rw [ih hys]; rfl
            · exact ih hys
        · exact ih hys
  rw [stepWise, this hx]
  rfl

/-- **C58** With 31 coefficients or more the number of combinations is not an `int`. -/
theorem C58_many_counterexample (est : SMap (Scl K) → SMap (Scl K)) (cond : SMap (Scl K) → K) (test : Name)
    (hex : ∀ x ∈ objs, isCoef x = true → (m.find x).isSome = true) (h : 31 ≤ (candidates m objs).length) :
    stepWise est cond test objs m = .ub := by
  rw [stepWise, getScls_some hex]
  simp only [Res.bind]
  rw [if_pos h]

end

/-! ### Examples -/

def nameA : Name := "a".toList
def nameB : Name := "b".toList
def nameC : Name := "c".toList
def r2 : Name := "e0_r2".toList

/-- Weights of the coefficients. -/
def weight (x : Name) : Rat := if x = nameA then 1 / 2 else if x = nameB then 1 / 3 else if x = nameC then 1 / 7 else 0

/-- An estimation whose test is the sum of the weights of the coefficients estimated. -/
def demoEst (m : SMap (Scl Rat)) : SMap (Scl Rat) :=
  m.insert r2 ⟨((([nameA, nameB, nameC].filter fun x => decide (m.find x = some ⟨9 / 10, 1⟩)).map weight).sum), 1⟩

/-- Not `a` and `b` together. -/
def demoCond (m : SMap (Scl Rat)) : Rat :=
  if m.find nameA = some ⟨9 / 10, 1⟩ ∧ m.find nameB = some ⟨9 / 10, 1⟩ then 0 else 1

def demo : SMap (Scl Rat) := [(nameA, ⟨3, 1⟩), (nameB, ⟨4, 1⟩), (nameC, ⟨5, 1⟩)]

example : candidates demo [nameA, "X".toList, nameB, nameC] = [nameA, nameB, nameC] := by decide +kernel

theorem demo_repeatable : Repeatable demoEst demoCond r2 [nameA, nameB, nameC] (fun _ => True)
    (fun A => (A.map weight).sum) (fun A => ¬ (nameA ∈ A ∧ nameB ∈ A)) := by
  have hfind : ∀ (m : SMap (Scl Rat)) x, x ∈ [nameA, nameB, nameC] → (demoEst m).find x = m.find x := by
    intro m x hx
    rw [demoEst, SMap.find_insert, if_neg]
    rintro rfl
    revert hx
    decide
  have hiff : ∀ (m : SMap (Scl Rat)) A, Configured [nameA, nameB, nameC] A m → ∀ x ∈ [nameA, nameB, nameC],
      (m.find x = some ⟨9 / 10, 1⟩ ↔ x ∈ A) := by
    intro m A h x hx
    constructor
    · intro hf
      by_contra hA
      rw [(h x hx).2 hA] at hf
      simp at hf
    · exact (h x hx).1
  refine ⟨fun _ _ _ _ => trivial, fun m A _ hs _ h => ⟨trivial, fun x hx => ?_⟩, fun m A _ hs _ h => ?_, fun m A _ hs _ h => ?_⟩
  · rw [hfind m x hx]; exact configured_some h x hx
  · refine ⟨_, by rw [demoEst, SMap.find_insert, if_pos rfl], ?_⟩
    simp only
    congr 2
    have : ([nameA, nameB, nameC].filter fun x => decide (m.find x = some ⟨9 / 10, 1⟩)) =
        [nameA, nameB, nameC].filter fun x => decide (x ∈ A) := by
      apply List.filter_congr
      intro x hx
      exact decide_eq_decide.2 (hiff m A h x hx)
    rw [this]
    have hall : ∀ B : List Name, B ∈ [nameA, nameB, nameC].sublists → ([nameA, nameB, nameC].filter fun x => decide (x ∈ B)) = B := by
      decide +kernel
    exact hall A (List.mem_sublists.2 hs)
  · have hab := and_congr (hiff m A h nameA (by simp)) (hiff m A h nameB (by simp))
    rw [demoCond, hfind m nameA (by simp), hfind m nameB (by simp), ← hab]
    split <;> simp_all

example : Eligible [nameA, nameB, nameC] (fun A => (A.map weight).sum) (fun A => ¬ (nameA ∈ A ∧ nameB ∈ A)) [nameA, nameC] :=
  ⟨by decide, by decide, by decide, by decide +kernel, by decide +kernel⟩

/-- `a` and `c` are chosen. -/
example : (match stepWise demoEst demoCond r2 [nameA, "X".toList, nameB, nameC] demo with
    | .ok r => some (r.1, r.2.find nameB, r.2.find nameC)
    | _ => none) = some (1 / 2 + 1 / 7, some ⟨0, 0⟩, some ⟨9 / 10, 1⟩) := by decide +kernel

/-- `b` is not to be estimated and is left alone. -/
example : candidates [(nameA, (⟨3, 1⟩ : Scl Rat)), (nameB, ⟨4, 0⟩)] [nameA, nameB] = [nameA] := by decide +kernel

/-! ### Where the choice is wrong -/

/-- **C58** An equation with one coefficient: it is set to 0 and is not estimated, whatever the estimation would have given. -/
theorem C58_one_counterexample (est : SMap (Scl Rat) → SMap (Scl Rat)) (cond : SMap (Scl Rat) → Rat) (test : Name) :
    stepWise est cond test [nameA] [(nameA, ⟨3, 1⟩)] = .ok (0, [(nameA, ⟨0, 0⟩)]) := by
  have h1 : ∀ i, i = 0 ∨ i = 1 → ∀ s : Scl Rat, run est test [nameA] i [(nameA, s)] =
      .ok (0, [(nameA, if i = 1 then ⟨9 / 10, 1⟩ else ⟨0, 0⟩)]) := by
    intro i hi s
    rcases hi with rfl | rfl <;> simp [run, setAll, setScl, SMap.find, SMap.insert, Res.bind, nameA]
  have h2 : getScls [(nameA, (⟨3, 1⟩ : Scl Rat))] [nameA] = .ok [nameA] := by decide +kernel
  rw [stepWise, h2]
  simp only [Res.bind, List.length_singleton]
  rw [if_neg (by decide), show 2 ^ 1 - 1 = 1 from rfl, loop, h1 1 (Or.inr rfl)]
  simp only [Res.bind]
  rw [if_neg (by simp), loop]
  simp only
  rw [h1 0 (Or.inl rfl)]
  simp

/-- An estimation that fails, and leaves the scalars as they are, when `a` and `b` are both to be estimated. -/
def failing (m : SMap (Scl Rat)) : SMap (Scl Rat) :=
  if m.find nameA = some ⟨9 / 10, 1⟩ ∧ m.find nameB = some ⟨9 / 10, 1⟩ then m else m.insert r2 ⟨1 / 2, 1⟩

/-- **C58** A combination whose estimation fails is chosen, on the test 0.9 left by an earlier estimation (of another equation, say),
    although other combinations can be estimated; in the end `a` and `b` have their starting values and the result is the test of another
    combination. -/
theorem C58_failed_counterexample : ∃ m' : SMap (Scl Rat),
    stepWise failing (fun _ => 1) r2 [nameA, nameB, nameC] (demo.insert r2 ⟨9 / 10, 1⟩) = .ok (1 / 2, m') ∧
    m'.find nameA = some ⟨9 / 10, 1⟩ ∧ m'.find nameB = some ⟨9 / 10, 1⟩ ∧ m'.find nameC = some ⟨0, 0⟩ := by
  refine ⟨[(nameA, ⟨9 / 10, 1⟩), (nameB, ⟨9 / 10, 1⟩), (nameC, ⟨0, 0⟩), (r2, ⟨1 / 2, 1⟩)], ?_, ?_, ?_, ?_⟩ <;> decide +kernel

/-- 26 names of 20 characters. -/
def longNames : List Name := (List.range 26).map fun i => Char.ofNat (97 + i) :: List.replicate 19 'x'

/-- **C58** The names of the coefficients of one combination are gathered in 512 bytes: 26 names of 20 characters do not fit. -/
theorem C58_buffer_counterexample (est : SMap (Scl Rat) → SMap (Scl Rat)) (test : Name) :
    (∀ x ∈ longNames, isCoef x = true) ∧
    run est test longNames (2 ^ 26 - 1) (longNames.map fun x => (x, ⟨1, 1⟩)) = .ub := by
  refine ⟨by decide +kernel, ?_⟩
  have : setAll (2 ^ 26 - 1) 0 longNames (longNames.map fun x => (x, (⟨1, 1⟩ : Scl Rat))) 0 0 = .ub := by decide +kernel
  rw [run, this]
  rfl

end Iode.StepWise.C58
