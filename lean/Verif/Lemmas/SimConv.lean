import Verif.Spec.Sim
import Verif.Lemmas.SimFrame
import Mathlib.Tactic.Linarith
import Mathlib.Tactic.Positivity
import Mathlib.Tactic.Ring

/-!
# What holds at the end of the steps of a simulation
-/
namespace Iode.Sim

variable {F : Type}

/-- An equation solved for its own variable by computing the formula. -/
def Direct (q : Unk F) : Prop := q.1.dup = false ∧ q.2 = q.1.own ∧ q.1.Explicit

theorem calcEq_direct (A : Flo F) (o : SimOpts F) (t : Int) (q : Unk F) (hq : Direct q) (s : Store F) {p : F × Store F}
    (h : calcEq A o t q s = .ok p) : q.1.exec s t = .ok p.1 ∧ p.2 = s := by
  unfold calcEq at h
  rw [if_neg (by rintro (h | h); · rw [hq.1] at h; cases h
                 · exact h hq.2.1)] at h
  obtain ⟨x, h1, h⟩ := bind_ok_inv h
  simp only [Res.ok.injEq] at h
  subst h
  exact ⟨h1, rfl⟩

/-- The formula of `q` does not contain the unknown of `r`. -/
def Free (q r : Unk F) : Prop := some r.2 ∉ q.1.objs

/-- A change of unknowns that do not occur in an equation does not change its value. -/
theorem Direct.congr {q : Unk F} (hq : Direct q) {vs : List Nat} {t : Int} {s s' : Store F} (h : Only vs t s s')
    (hv : ∀ v ∈ vs, some v ∈ q.1.objs → v = q.2) : q.1.exec s' t = q.1.exec s t := by
  refine hq.2.2 s' s t fun v u hm hn => h v u ?_
  rintro ⟨h1, h2⟩
  exact hn ⟨by rw [← hq.2.1]; exact hv v h1 hm, h2⟩

theorem Only.keeps {vs : List Nat} {t : Int} {s s' : Store F} (h : Only vs t s s') {v : Nat} (hv : v ∉ vs) (u : Int) :
    s' v u = s v u :=
  h v u fun hh => hv hh.1

/-- Equations solved one after the other, none of which contains a later unknown, all hold at the end. -/
theorem solveAll_holds (A : Flo F) (o : SimOpts F) (t : Int) : ∀ (qs : List (Unk F)), (∀ q ∈ qs, Direct q) →
    (unks qs).Nodup → qs.Pairwise Free → ∀ s s', solveAll A o t qs s = .ok s' →
    ∀ q ∈ qs, q.1.exec s' t = .ok (s' q.2 t) := by
  intro qs
  induction qs with
  | nil => intro _ _ _ s s' _ q hq; cases hq
  | cons a qs ih =>
    intro hd hn hp s s' h q hq
    simp only [solveAll] at h
    obtain ⟨p, h1, h⟩ := bind_ok_inv h
    obtain ⟨h2, h3⟩ := calcEq_direct A o t a (hd a (List.mem_cons_self ..)) s h1
    rw [h3] at h
    have hn' : a.2 ∉ unks qs ∧ (unks qs).Nodup := List.nodup_cons.1 hn
    have hp' := List.pairwise_cons.1 hp
    rcases List.mem_cons.1 hq with rfl | hq
    · have ho := solveAll_only A o t qs qs (fun _ h => h) _ _ h
      have e1 : s' q.2 t = p.1 := by
        rw [ho.keeps hn'.1, Store.set_same]
      rw [e1, ← h2]
      refine (hd q (List.mem_cons_self ..)).congr (vs := q.2 :: unks qs) (((Only.set (List.mem_cons_self ..) t s p.1)).trans
        (ho.mono fun v hv => List.mem_cons_of_mem _ hv)) ?_
      intro v hv hm
      rcases List.mem_cons.1 hv with rfl | hv
      · rfl
      · obtain ⟨r, hr, rfl⟩ := List.mem_map.1 hv
        exact absurd hm (hp'.1 r hr)
    · exact ih (fun q hq => hd q (List.mem_cons_of_mem _ hq)) hn'.2 hp'.2 _ _ h q hq

theorem restoreXK_back (t : Int) : ∀ (qs : List (Unk F)) (s s1 : Store F), Only (unks qs) t s s1 →
    restoreXK t qs (qs.map fun q => s q.2 t) s1 = s := by
  intro qs
  induction qs with
  | nil =>
    intro s s1 h
    funext w u
    exact h w u (fun hh => by cases hh.1)
  | cons q qs ih =>
    intro s s1 h
    show restoreXK t qs (qs.map fun q => s q.2 t) (s1.set q.2 t (s q.2 t)) = s
    refine ih s _ ?_
    intro w u hw
    by_cases hc : w = q.2 ∧ u = t
    · rw [hc.1, hc.2, Store.set_same]
    · rw [Store.set_other _ _ hc]
      exact h w u fun hh => by
        rcases List.mem_cons.1 hh.1 with h1 | h1
        · exact hc ⟨h1, hh.2⟩
        · exact hw ⟨h1, hh.2⟩

section field
variable {K : Type} [Field K] [LinearOrder K] [IsStrictOrderedRing K]

theorem near_of_dist {A : Flo K} (hA : A.Exact) {relax n xk x : K} (hr : 0 ≤ relax)
    (h : A.mul (dist A xk x) relax ≤ n) : |xk - x| * relax ≤ n * max 1 |xk| := by
  have h1 : |xk - x| ≤ dist A xk x * max 1 |xk| := by
    unfold dist
    simp only [hA.abs, hA.sub, hA.div, hA.rat, hA.lt, Int.cast_one, Nat.cast_one, div_one]
    split
    · next hz =>
      have hne : xk ≠ 0 := by rintro rfl; rw [hA.zero] at hz; cases hz
      have hpos : 0 < |xk| := abs_pos.2 hne
      have e : |1 - x / xk| * |xk| = |xk - x| := by
        rw [← abs_mul, sub_mul, one_mul, div_mul_cancel₀ _ hne]
      split
      · exact le_mul_of_one_le_right (abs_nonneg _) (le_max_left ..)
      · rw [← e]
        exact mul_le_mul_of_nonneg_left (le_max_right ..) (abs_nonneg _)
    · exact le_mul_of_one_le_right (abs_nonneg _) (le_max_left ..)
  rw [hA.mul] at h
  have hm : (0 : K) ≤ max 1 |xk| := le_trans zero_le_one (le_max_left ..)
  calc |xk - x| * relax ≤ dist A xk x * max 1 |xk| * relax := mul_le_mul_of_nonneg_right h1 hr
    _ = dist A xk x * relax * max 1 |xk| := by ring
    _ ≤ n * max 1 |xk| := mul_le_mul_of_nonneg_right h hm

theorem le_raise {A : Flo K} (hA : A.Exact) (n d : K) : n ≤ raise A n d ∧ d ≤ raise A n d := by
  unfold raise
  split
  · next h => exact ⟨((hA.lt _ _).1 h).le, le_rfl⟩
  · next h => exact ⟨le_rfl, not_lt.1 fun hh => h ((hA.lt _ _).2 hh)⟩

theorem near_mono {a b y : K} (h : a ≤ b) : a * max 1 |y| ≤ b * max 1 |y| :=
  mul_le_mul_of_nonneg_right h (le_trans zero_le_one (le_max_left ..))

/-- Simultaneous updates: the distances are those between the stored values and the values of the formulas at them. -/
theorem jacobiCalc_spec {A : Flo K} {o : SimOpts K} {t : Int} : ∀ (qs : List (Unk K)), (∀ q ∈ qs, Direct q) →
    ∀ s r, jacobiCalc A o t qs s = .ok r → r.2 = s ∧ ∀ l, r.1 = some l →
      ∃ xs, l = (qs.map fun q => s q.2 t).zip xs ∧ List.Forall₂ (fun q x => q.1.exec s t = .ok x) qs xs := by
  intro qs
  induction qs with
  | nil =>
    intro _ s r h
    simp only [jacobiCalc, Res.ok.injEq] at h
    subst h
    exact ⟨rfl, fun l hl => ⟨[], by simpa using hl.symm, List.Forall₂.nil⟩⟩
  | cons q qs ih =>
    intro hd s r h
    simp only [jacobiCalc] at h
    obtain ⟨p, h1, h⟩ := bind_ok_inv h
    obtain ⟨h2, h3⟩ := calcEq_direct A o t q (hd q (List.mem_cons_self ..)) s h1
    split at h
    · simp only [Res.ok.injEq] at h
      subst h
      exact ⟨h3, fun l hl => by cases hl⟩
    · obtain ⟨r', h4, h⟩ := bind_ok_inv h
      rw [h3] at h4
      obtain ⟨h5, h6⟩ := ih (fun q hq => hd q (List.mem_cons_of_mem _ hq)) _ _ h4
      split at h
      · simp only [Res.ok.injEq] at h
        subst h
        exact ⟨h5, fun l hl => by cases hl⟩
      · next l' hl' =>
        simp only [Res.ok.injEq] at h
        subst h
        refine ⟨h5, fun l hl => ?_⟩
        simp only [Option.some.injEq] at hl
        obtain ⟨xs, e, hf⟩ := h6 l' hl'
        exact ⟨p.1 :: xs, by rw [← hl, e]; rfl, List.Forall₂.cons h2 hf⟩

theorem jacobiSet_norm {A : Flo K} (hA : A.Exact) (relax : K) (hr : 0 ≤ relax) (t : Int) :
    ∀ (l : List (Unk K × (K × K))) norm s, norm ≤ (jacobiSet A relax t l norm s).1 ∨ 10 ≤ (jacobiSet A relax t l norm s).1 := by
  intro l
  induction l with
  | nil => intro norm s; exact Or.inl le_rfl
  | cons a l ih =>
    intro norm s
    obtain ⟨q, xk, x⟩ := a
    simp only [jacobiSet]
    split
    · rcases ih (raise A norm (A.mul (dist A xk x) relax)) (s.set q.2 t (A.add (A.mul relax x)
        (A.mul (A.sub (A.rat 1 1) relax) xk))) with h | h
      · exact Or.inl ((le_raise hA _ _).1.trans h)
      · exact Or.inr h
    · rcases ih (A.rat 10 1) (s.set q.2 t x) with h | h
      · refine Or.inr (le_trans (le_of_eq ?_) h)
        rw [hA.rat]; norm_num
      · exact Or.inr h

theorem jacobiSet_near {A : Flo K} (hA : A.Exact) (relax : K) (hr : 0 ≤ relax) (t : Int) :
    ∀ (l : List (Unk K × (K × K))) norm s, (jacobiSet A relax t l norm s).1 < 10 →
      norm ≤ (jacobiSet A relax t l norm s).1 ∧
      ∀ a ∈ l, |a.2.1 - a.2.2| * relax ≤ (jacobiSet A relax t l norm s).1 * max 1 |a.2.1| := by
  intro l
  induction l with
  | nil => intro norm s _; exact ⟨le_rfl, fun a ha => by cases ha⟩
  | cons a l ih =>
    intro norm s
    obtain ⟨q, xk, x⟩ := a
    simp only [jacobiSet]
    split
    · intro h
      obtain ⟨h1, h2⟩ := ih _ _ h
      have hle := le_raise hA norm (A.mul (dist A xk x) relax)
      refine ⟨hle.1.trans h1, fun a ha => ?_⟩
      rcases List.mem_cons.1 ha with rfl | ha
      · exact near_of_dist hA hr (hle.2.trans h1)
      · exact h2 a ha
    · intro h
      obtain ⟨h1, _⟩ := ih _ _ h
      rw [hA.rat] at h1
      norm_num at h1
      exact absurd h (not_lt.2 (by simpa [hA.rat] using h1))

theorem jacobi_spec {A : Flo K} (hA : A.Exact) {o : SimOpts K} {relax : K} (hr : 0 ≤ relax) {t : Int} {qs : List (Unk K)}
    (hd : ∀ q ∈ qs, Direct q) {s s1 : Store K} {norm : K} {xk : List K}
    (h : jacobi A o relax t qs s = .ok (some (norm, xk), s1)) (h10 : norm < 10) :
    0 ≤ norm ∧ xk = (qs.map fun q => s q.2 t) ∧
      ∀ q ∈ qs, ∃ x, q.1.exec s t = .ok x ∧ |s q.2 t - x| * relax ≤ norm * max 1 |s q.2 t| := by
  unfold jacobi at h
  obtain ⟨r, h1, h⟩ := bind_ok_inv h
  obtain ⟨h2, h3⟩ := jacobiCalc_spec qs hd _ _ h1
  cases hl : r.1 with
  | none => rw [hl] at h; simp only [Res.ok.injEq, Prod.mk.injEq] at h; cases h.1
  | some l =>
    rw [hl] at h
    simp only [Res.ok.injEq, Prod.mk.injEq, Option.some.injEq] at h
    obtain ⟨⟨h4, h5⟩, _⟩ := h
    obtain ⟨xs, e, hf⟩ := h3 l hl
    rw [← h4] at h10 ⊢
    obtain ⟨h6, h7⟩ := jacobiSet_near hA relax hr t _ _ _ h10
    have hlen := hf.length_eq
    refine ⟨?_, ?_, ?_⟩
    · have e0 : A.rat 0 1 = 0 := by rw [hA.rat]; simp
      rw [e0] at h6 ⊢; exact h6
    · rw [← h5, e, List.map_fst_zip (by simp [hlen])]
    · intro q hq
      obtain ⟨i, hi⟩ := List.mem_iff_getElem?.1 hq
      obtain ⟨hi', hi''⟩ := List.getElem?_eq_some_iff.1 hi
      have hix : i < xs.length := by omega
      refine ⟨xs[i], ?_, ?_⟩
      · have := List.Forall₂.get hf (i := i) hi' hix
        simpa [hi''] using this
      · refine h7 (q, (s q.2 t, xs[i])) ?_
        rw [List.mem_iff_getElem?]
        refine ⟨i, ?_⟩
        rw [List.getElem?_zip_eq_some, e, List.getElem?_zip_eq_some]
        refine ⟨hi, ?_, ?_⟩
        · simp [hi]
        · simp [hix]

/-- Successive updates: the formula is computed at values that differ from the old ones by the changes made before. -/
theorem gaussSeidel_spec {A : Flo K} (hA : A.Exact) {o : SimOpts K} {relax : K} (hr : 0 ≤ relax) {t : Int} :
    ∀ (qs : List (Unk K)), (∀ q ∈ qs, Direct q) → (unks qs).Nodup → ∀ norm s norm' xk s1,
      gaussSeidel A o relax t qs norm s = .ok (some (norm', xk), s1) → norm' < 10 →
      norm ≤ norm' ∧ xk = (qs.map fun q => s q.2 t) ∧
      ∀ l1 q l2, qs = l1 ++ q :: l2 → ∃ m x, Only (unks l1) t s m ∧ (∀ v ∈ unks l1, Near norm' (s v t) (m v t)) ∧
        q.1.exec m t = .ok x ∧ |s q.2 t - x| * relax ≤ norm' * max 1 |s q.2 t| := by
  intro qs
  induction qs with
  | nil =>
    intro _ _ norm s norm' xk s1 h _
    simp only [gaussSeidel, Res.ok.injEq, Prod.mk.injEq, Option.some.injEq] at h
    exact ⟨h.1.1.le, h.1.2.symm, fun l1 q l2 h => by simp at h⟩
  | cons a qs ih =>
    intro hd hn norm s norm' xk s1 h h10
    simp only [gaussSeidel] at h
    obtain ⟨p, h1, h⟩ := bind_ok_inv h
    obtain ⟨h2, h3⟩ := calcEq_direct A o t a (hd a (List.mem_cons_self ..)) s h1
    have hn' : a.2 ∉ unks qs ∧ (unks qs).Nodup := List.nodup_cons.1 hn
    have hd' : ∀ q ∈ qs, Direct q := fun q hq => hd q (List.mem_cons_of_mem _ hq)
    split at h
    · simp only [Res.ok.injEq, Prod.mk.injEq] at h; cases h.1
    · rw [h3] at h
      obtain ⟨r, h4, h⟩ := bind_ok_inv h
      obtain ⟨r1, r2⟩ := r
      cases r1 with
      | none => simp only [Res.ok.injEq, Prod.mk.injEq] at h; cases h.1
      | some nx =>
        obtain ⟨n1, xk1⟩ := nx
        simp only [Res.ok.injEq, Prod.mk.injEq, Option.some.injEq] at h
        obtain ⟨⟨rfl, h5⟩, rfl⟩ := h
        split at h4
        · obtain ⟨h6, h7, h8⟩ := ih hd' hn'.2 _ _ _ _ _ h4 h10
          have hle := le_raise hA norm (A.mul (dist A (s a.2 t) p.1) relax)
          have hnear := near_of_dist hA hr (hle.2.trans h6)
          refine ⟨hle.1.trans h6, ?_, ?_⟩
          · rw [← h5, h7, List.map_cons]
            congr 1
            refine List.map_congr_left fun q hq => ?_
            rw [Store.set_other]
            rintro ⟨e, _⟩
            exact hn'.1 (by rw [← e]; exact unks_mem hq)
          · intro l1 q l2 e
            cases l1 with
            | nil =>
              simp only [List.nil_append, List.cons.injEq] at e
              obtain ⟨rfl, rfl⟩ := e
              exact ⟨s, p.1, Only.refl _ _ _, fun v hv => by simp [unks] at hv, h2, hnear⟩
            | cons b l1 =>
              simp only [List.cons_append, List.cons.injEq] at e
              obtain ⟨rfl, rfl⟩ := e
              obtain ⟨m, x, c1, c2, c3, c4⟩ := h8 l1 q l2 rfl
              have hne : ∀ v ∈ unks (l1 ++ q :: l2), v ≠ a.2 := fun v hv e => hn'.1 (by rw [← e]; exact hv)
              have hmem : ∀ v ∈ unks l1, v ∈ unks (l1 ++ q :: l2) := fun v hv => by
                unfold unks at hv ⊢; rw [List.map_append]; exact List.mem_append_left _ hv
              refine ⟨m, x, ?_, ?_, c3, ?_⟩
              · exact (Only.set (List.mem_cons_self ..) t s _).trans (c1.mono fun v hv => List.mem_cons_of_mem _ hv)
              · intro v hv
                rcases List.mem_cons.1 hv with rfl | hv
                · have : m a.2 t = relax * (p.1 - s a.2 t) + s a.2 t := by
                    rw [c1.keeps (fun hh => hn'.1 (hmem _ hh)), Store.set_same, hA.add, hA.mul, hA.sub]
                  unfold Near
                  rw [this]
                  refine le_trans (le_of_eq ?_) hnear
                  have : s a.2 t - (relax * (p.1 - s a.2 t) + s a.2 t) = (s a.2 t - p.1) * relax := by ring
                  rw [this, abs_mul, abs_of_nonneg hr]
                · have := c2 v hv
                  rwa [Store.set_other _ _ (fun hh => hne v (hmem v hv) hh.1)] at this
              · have hq : q.2 ≠ a.2 := hne q.2 (unks_mem (List.mem_append_right _ (List.mem_cons_self ..)))
                rwa [Store.set_other _ _ (fun hh => hq hh.1)] at c4
        · obtain ⟨h6, _, _⟩ := ih hd' hn'.2 _ _ _ _ _ h4 h10
          rw [hA.rat] at h6
          norm_num at h6
          exact absurd h10 (not_lt.2 (by simpa using h6))

end field

end Iode.Sim
