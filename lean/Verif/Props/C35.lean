import Verif.Lemmas.SimConv
import Verif.Props.C34
import Verif.Props.C36

/-!
# C35: a reported convergence means the equations hold
-/
namespace Iode.Sim

section plan
variable {F : Type}

/-- No equation of the prolog or of the epilog comes before an equation it uses, and the block uses nothing of the epilog. -/
structure Plan.Sound (pl : Plan F) : Prop where
  nodup : (unks pl.all).Nodup
  pre : pl.pre.Pairwise Free
  preInter : ∀ q ∈ pl.pre, ∀ r ∈ pl.inter, Free q r
  prePost : ∀ q ∈ pl.pre, ∀ r ∈ pl.post, Free q r
  interPost : ∀ q ∈ pl.inter, ∀ r ∈ pl.post, Free q r
  post : pl.post.Pairwise Free

theorem unkAt_some {eqs : List (Eqn F)} {e : Endo} {i : Nat} {q : Unk F} (h : unkAt eqs e i = some q) :
    eqs[i]? = some q.1 ∧ e.posxk[i]? = some q.2 := by
  unfold unkAt at h
  split at h
  · next a b h1 h2 =>
    simp only [Option.some.injEq] at h
    subst h
    exact ⟨h1, h2⟩
  · cases h

theorem free_of {eqs : List (Eqn F)} {e : Endo} {i j : Nat} {q r : Unk F} (hq : unkAt eqs e i = some q)
    (hr : unkAt eqs e j = some r) (hne : i ≠ j) (h : ¬DependsOn e (eqs.map (·.objs)) i j) : Free q r := by
  intro hm
  refine h ⟨hne, q.1.objs, r.2, ?_, hm, (unkAt_some hr).2⟩
  rw [List.getElem?_map, (unkAt_some hq).1]
  rfl

theorem planOf_all (eqs : List (Eqn F)) (e : Endo) (b : Blocks) :
    (planOf eqs e b).all = b.order.filterMap (unkAt eqs e) := by
  simp [planOf, Plan.all, Blocks.order]

/-- The plan of an order is sound. -/
theorem planOf_sound {sort : SortBy} {passes : Nat} {e : Endo} (he : e.Solved) {eqs : List (Eqn F)}
    {names : List (Option Nat)} {b : Blocks} (h : order sort passes e (eqs.map (·.objs)) names = .ok b)
    (hn : b.order.Nodup) : (planOf eqs e b).Sound := by
  have hpre : b.pre.Nodup := (List.nodup_append.1 (List.nodup_append.1 hn).1).1
  have h33 := C33_prolog_needs_earlier_only sort passes e he _ names b h
  have h34 := C34_epilog_feeds_nobody_before sort passes e he _ names b h
  have late : ∀ i ∈ b.pre, ∀ j, j ∉ b.pre → ¬DependsOn e (eqs.map (·.objs)) i j := by
    intro i hi j hj hd
    obtain ⟨k, hk⟩ := List.mem_iff_getElem?.1 hi
    exact hj (List.mem_of_mem_take (h33 k i j hk hd))
  have disj : ∀ i ∈ b.pre, ∀ j ∈ b.inter ++ b.post, i ≠ j := by
    intro i hi j hj
    have := hn
    unfold Blocks.order at this
    rw [List.append_assoc] at this
    exact (List.nodup_append.1 this).2.2 i hi j hj
  have epi : ∀ a c i j, a < c → b.pre.length + b.inter.length ≤ c → b.order[a]? = some i → b.order[c]? = some j →
      i ≠ j ∧ ¬DependsOn e (eqs.map (·.objs)) i j := by
    intro a c i j h1 h2 h3 h4
    refine ⟨?_, h34 a c i j h1 h2 h3 h4⟩
    rintro rfl
    have ha := List.getElem?_eq_some_iff.1 h3
    have hc := List.getElem?_eq_some_iff.1 h4
    have := (List.Nodup.getElem_inj_iff hn (hi := ha.1) (hj := hc.1)).1 (by rw [ha.2, hc.2])
    omega
  have hpost : ∀ i ∈ b.pre ++ b.inter, ∀ j ∈ b.post, i ≠ j ∧ ¬DependsOn e (eqs.map (·.objs)) i j := by
    intro i hi j hj
    obtain ⟨a, ha⟩ := List.mem_iff_getElem?.1 hi
    obtain ⟨c, hc⟩ := List.mem_iff_getElem?.1 hj
    have ha' := (List.getElem?_eq_some_iff.1 ha).1
    simp only [List.length_append] at ha'
    refine epi a (b.pre.length + b.inter.length + c) i j (by omega) (by omega) ?_ ?_
    · unfold Blocks.order
      rw [List.getElem?_append_left (by simpa using ha')]
      exact ha
    · unfold Blocks.order
      rw [List.getElem?_append_right (by simp)]
      simpa using hc
  refine ⟨?_, ?_, ?_, ?_, ?_, ?_⟩
  · rw [planOf_all]
    unfold unks
    rw [List.Nodup, List.pairwise_map, List.pairwise_filterMap]
    refine List.Pairwise.imp ?_ hn
    intro i j hij q hq r hr heq
    have h1 := he i q.2 (unkAt_some hq).2
    have h2 := he j r.2 (unkAt_some hr).2
    rw [heq, h2] at h1
    exact hij (Option.some.inj h1).symm
  · simp only [planOf]
    rw [List.pairwise_filterMap, List.pairwise_iff_getElem]
    intro k l hk hl hkl q hq r hr
    have hne : b.pre[k] ≠ b.pre[l] := fun hh => by
      have := (List.Nodup.getElem_inj_iff hpre (hi := hk) (hj := hl)).1 hh; omega
    refine free_of hq hr hne fun hd => ?_
    have := h33 k b.pre[k] b.pre[l] (List.getElem?_eq_getElem hk) hd
    obtain ⟨m, hm, hm2⟩ := List.mem_iff_getElem.1 this
    rw [List.getElem_take] at hm2
    simp only [List.length_take] at hm
    have := (List.Nodup.getElem_inj_iff hpre (hi := by omega) (hj := hl)).1 hm2
    omega
  · intro q hq r hr
    simp only [planOf, List.mem_filterMap] at hq hr
    obtain ⟨i, hi, hq⟩ := hq
    obtain ⟨j, hj, hr⟩ := hr
    refine free_of hq hr (disj i hi j (List.mem_append_left _ hj)) (late i hi j fun hh => ?_)
    exact disj j hh j (List.mem_append_left _ hj) rfl
  · intro q hq r hr
    simp only [planOf, List.mem_filterMap] at hq hr
    obtain ⟨i, hi, hq⟩ := hq
    obtain ⟨j, hj, hr⟩ := hr
    exact free_of hq hr (hpost i (List.mem_append_left _ hi) j hj).1 (hpost i (List.mem_append_left _ hi) j hj).2
  · intro q hq r hr
    simp only [planOf, List.mem_filterMap] at hq hr
    obtain ⟨i, hi, hq⟩ := hq
    obtain ⟨j, hj, hr⟩ := hr
    exact free_of hq hr (hpost i (List.mem_append_right _ hi) j hj).1 (hpost i (List.mem_append_right _ hi) j hj).2
  · simp only [planOf]
    rw [List.pairwise_filterMap, List.pairwise_iff_getElem]
    intro k l hk hl hkl q hq r hr
    have := epi (b.pre.length + b.inter.length + k) (b.pre.length + b.inter.length + l) b.post[k] b.post[l] (by omega)
      (by omega) (by unfold Blocks.order; rw [List.getElem?_append_right (by simp)]; simp [hk])
      (by unfold Blocks.order; rw [List.getElem?_append_right (by simp)]; simp [hl])
    exact free_of hq hr this.1 this.2

theorem iterate_conv (A : Flo F) (o : SimOpts F) (t : Int) (qs : List (Unk F)) :
    ∀ n xk s xk' s', iterate A o t qs n xk s = .ok (.conv xk' s') → ∃ s0 norm, Only (unks qs) t s s0 ∧
      interdep A o t qs s0 = .ok (some (norm, xk'), s') ∧ (A.lt norm o.eps = true ∨ A.eq norm o.eps = true) := by
  intro n
  induction n with
  | zero => intro xk s xk' s' h; simp [iterate] at h
  | succ n ih =>
    intro xk s xk' s' h
    simp only [iterate] at h
    obtain ⟨r, h1, h⟩ := bind_ok_inv h
    obtain ⟨r1, r2⟩ := r
    have hc := interdep_only A o t qs qs (fun _ h => h) s h1
    cases r1 with
    | none => simp at h
    | some nx =>
      obtain ⟨n1, xk1⟩ := nx
      simp only at h
      split at h
      · next hn =>
        simp only [Res.ok.injEq, Iter.conv.injEq] at h
        obtain ⟨rfl, rfl⟩ := h
        exact ⟨s, n1, Only.refl _ _ _, h1, hn⟩
      · obtain ⟨s0, norm, c1, c2, c3⟩ := ih _ _ _ _ h
        exact ⟨s0, norm, hc.trans c1, c2, c3⟩

end plan

variable {K : Type} [Field K] [LinearOrder K] [IsStrictOrderedRing K]

/-- What a solved period gives for each equation. -/
structure Holds (o : SimOpts K) (pl : Plan K) (s : Store K) (t : Int) : Prop where
  ends : ∀ q ∈ pl.pre ++ pl.post, q.1.HoldsAt s t
  jacobi : o.relax < 0 → ∀ q ∈ pl.inter, q.1.HoldsWithin o.eps o.relax s t
  gauss : 0 ≤ o.relax → ∀ q ∈ pl.inter, q.1.HoldsNearby o.eps o.relax (unks pl.inter) s t
  eps : 0 ≤ o.eps

theorem simPeriod_holds {A : Flo K} (hA : A.Exact) {o : SimOpts K} (h10 : o.eps < 10) {pl : Plan K} (hp : pl.Sound)
    (hd : ∀ q ∈ pl.all, Direct q) {t : Int} {xk : List K} {s : Store K} {xk' : List K} {s' : Store K}
    (h : simPeriod A o t pl xk s = .ok (true, xk', s')) : Holds o pl s' t := by
  have m1 : ∀ q ∈ pl.pre, Direct q := fun q hq => hd q (List.mem_append_left _ (List.mem_append_left _ hq))
  have m2 : ∀ q ∈ pl.inter, Direct q := fun q hq => hd q (List.mem_append_left _ (List.mem_append_right _ hq))
  have m3 : ∀ q ∈ pl.post, Direct q := fun q hq => hd q (List.mem_append_right _ hq)
  have hn := hp.nodup
  unfold unks Plan.all at hn
  simp only [List.map_append] at hn
  have hn1 := List.nodup_append.1 hn
  have hn2 := List.nodup_append.1 hn1.1
  have d12 : ∀ v ∈ unks pl.pre, v ∉ unks pl.inter := fun v hv hv' => hn2.2.2 v hv v hv' rfl
  have d13 : ∀ v ∈ unks pl.pre, v ∉ unks pl.post := fun v hv hv' => hn1.2.2 v (List.mem_append_left _ hv) v hv' rfl
  have d23 : ∀ v ∈ unks pl.inter, v ∉ unks pl.post := fun v hv hv' => hn1.2.2 v (List.mem_append_right _ hv) v hv' rfl
  unfold simPeriod at h
  obtain ⟨s1, h1, h⟩ := bind_ok_inv h
  obtain ⟨i, h2, h⟩ := bind_ok_inv h
  cases i with
  | noValue s2 => simp at h
  | noConv xk2 s2 => simp only at h; obtain ⟨s3, _, h⟩ := bind_ok_inv h; simp at h
  | conv xk2 s2 =>
    simp only at h
    obtain ⟨s3, h3, h⟩ := bind_ok_inv h
    simp only [Res.ok.injEq, Prod.mk.injEq, true_and] at h
    obtain ⟨rfl, rfl⟩ := h
    obtain ⟨s0, norm, c1, c2, c3⟩ := iterate_conv A o t pl.inter _ _ _ _ _ h2
    have hne : norm ≤ o.eps := by
      rcases c3 with c3 | c3
      · exact ((hA.lt _ _).1 c3).le
      · exact ((hA.eq _ _).1 c3).le
    have hn10 : norm < 10 := lt_of_le_of_lt hne h10
    have o2 := interdep_only A o t pl.inter pl.inter (fun _ h => h) s0 c2
    -- the restored store is the one before the last iteration
    have key : 0 ≤ norm ∧ restoreXK t pl.inter xk2 s2 = s0 ∧
        (o.relax < 0 → ∀ q ∈ pl.inter, ∃ x, q.1.exec s0 t = .ok x ∧ |s0 q.2 t - x| * |o.relax| ≤ norm * max 1 |s0 q.2 t|) ∧
        (0 ≤ o.relax → ∀ l1 q l2, pl.inter = l1 ++ q :: l2 → ∃ m x, Only (unks l1) t s0 m ∧
          (∀ v ∈ unks l1, Near norm (s0 v t) (m v t)) ∧ q.1.exec m t = .ok x ∧
            |s0 q.2 t - x| * |o.relax| ≤ norm * max 1 |s0 q.2 t|) := by
      unfold interdep at c2
      have e0 : A.rat 0 1 = 0 := by rw [hA.rat]; simp
      by_cases hneg : o.relax < 0
      · rw [if_pos ((hA.lt _ _).2 (by rw [e0]; exact hneg)), hA.abs] at c2
        obtain ⟨g1, g2, g3⟩ := jacobi_spec hA (abs_nonneg _) m2 c2 hn10
        refine ⟨g1, ?_, fun _ => g3, fun hh => absurd hneg (not_lt.2 hh)⟩
        rw [g2]
        exact restoreXK_back t _ _ _ o2
      · rw [if_neg (fun hh => hneg (by rw [← e0]; exact (hA.lt _ _).1 hh)), hA.abs] at c2
        obtain ⟨g1, g2, g3⟩ := gaussSeidel_spec hA (abs_nonneg _) _ m2 hn2.2.1 _ _ _ _ _ c2 hn10
        refine ⟨by rw [e0] at g1; exact g1, ?_, fun hh => absurd hh hneg, fun _ => g3⟩
        rw [g2]
        exact restoreXK_back t _ _ _ o2
    obtain ⟨k0, kr, k1, k2⟩ := key
    rw [kr] at h3
    have o3 := solveAll_only A o t pl.post pl.post (fun _ h => h) _ _ h3
    have keep : ∀ q ∈ pl.inter, s3 q.2 t = s0 q.2 t := fun q hq => o3.keeps (d23 _ (unks_mem hq)) t
    refine ⟨?_, ?_, ?_, k0.trans hne⟩
    · intro q hq
      unfold Eqn.HoldsAt
      rcases List.mem_append.1 hq with hq | hq
      · have e1 := solveAll_holds A o t pl.pre m1 hn2.1 hp.pre _ _ h1 q hq
        have o4 : Only (unks (pl.inter ++ pl.post)) t s1 s3 := by
          have : unks (pl.inter ++ pl.post) = unks pl.inter ++ unks pl.post := by simp [unks]
          rw [this]
          exact (c1.mono fun v hv => List.mem_append_left _ hv).trans (o3.mono fun v hv => List.mem_append_right _ hv)
        rw [(m1 q hq).congr o4, e1, ← (m1 q hq).2.1, o4.keeps]
        · intro hh
          obtain ⟨r, hr, e⟩ := List.mem_map.1 hh
          rcases List.mem_append.1 hr with hr | hr
          · exact d12 _ (unks_mem hq) (by rw [← e]; exact unks_mem hr)
          · exact d13 _ (unks_mem hq) (by rw [← e]; exact unks_mem hr)
        · intro v hv hm
          obtain ⟨r, hr, rfl⟩ := List.mem_map.1 hv
          rcases List.mem_append.1 hr with hr | hr
          · exact absurd hm (hp.preInter q hq r hr)
          · exact absurd hm (hp.prePost q hq r hr)
      · rw [← (m3 q hq).2.1]
        exact solveAll_holds A o t pl.post m3 hn1.2.1 hp.post _ _ h3 q hq
    · intro hneg q hq
      obtain ⟨x, x1, x2⟩ := k1 hneg q hq
      refine ⟨x, ?_, ?_⟩
      · rw [(m2 q hq).congr o3, x1]
        intro v hv hm
        obtain ⟨r, hr, rfl⟩ := List.mem_map.1 hv
        exact absurd hm (hp.interPost q hq r hr)
      · rw [← (m2 q hq).2.1, keep q hq]
        exact x2.trans (near_mono hne)
    · intro hpos q hq
      obtain ⟨l1, l2, e⟩ := List.append_of_mem hq
      obtain ⟨m, x, x1, x2, x3, x4⟩ := k2 hpos l1 q l2 e
      have hl1 : ∀ v ∈ unks l1, v ∈ unks pl.inter := fun v hv => by
        rw [e]; unfold unks at hv ⊢; rw [List.map_append]; exact List.mem_append_left _ hv
      refine ⟨fun w u => if w ∈ unks pl.inter ∧ u = t then m w u else s3 w u, x, ?_, ?_, ?_, ?_⟩
      · intro w u hw
        show (if w ∈ unks pl.inter ∧ u = t then m w u else s3 w u) = _
        rw [if_neg hw]
      · intro w hw
        show Near _ _ (if w ∈ unks pl.inter ∧ t = t then m w t else s3 w t)
        rw [if_pos ⟨hw, rfl⟩, o3.keeps (d23 w hw)]
        by_cases hw1 : w ∈ unks l1
        · exact (x2 w hw1).trans (near_mono hne)
        · rw [x1.keeps hw1]
          unfold Near
          rw [sub_self, abs_zero]
          exact mul_nonneg (k0.trans hne) (le_trans zero_le_one (le_max_left ..))
      · rw [← x3]
        refine (m2 q hq).congr (vs := unks pl.post) ?_ ?_
        · intro w u hw
          show (if w ∈ unks pl.inter ∧ u = t then m w u else s3 w u) = m w u
          split
          · rfl
          · next hw2 =>
            rw [x1 w u (fun hh => hw2 ⟨hl1 w hh.1, hh.2⟩)]
            exact o3 w u hw
        · intro v hv hm
          obtain ⟨r, hr, rfl⟩ := List.mem_map.1 hv
          exact absurd hm (hp.interPost q hq r hr)
      · rw [← (m2 q hq).2.1, keep q hq]
        exact x4.trans (near_mono hne)

/-- What holds at a period is not changed by later periods if no formula has a lead. -/
theorem Holds.later {o : SimOpts K} {pl : Plan K} {s s' : Store K} {t : Int} (h : Holds o pl s t)
    (hb : ∀ q ∈ pl.all, q.1.Backward) (hs : ∀ w u, u ≤ t → s' w u = s w u) : Holds o pl s' t := by
  refine ⟨fun q hq => ?_, fun hr q hq => ?_, fun hr q hq => ?_, h.eps⟩
  · have hb := hb q (by
      rcases List.mem_append.1 hq with hq | hq
      · exact List.mem_append_left _ (List.mem_append_left _ hq)
      · exact List.mem_append_right _ hq)
    have := h.ends q hq
    unfold Eqn.HoldsAt at this ⊢
    rw [hb s' s t fun v u _ hu => hs v u hu, this, hs _ _ le_rfl]
  · obtain ⟨x, h1, h2⟩ := h.jacobi hr q hq
    have hb := hb q (List.mem_append_left _ (List.mem_append_right _ hq))
    exact ⟨x, by rw [hb s' s t fun v u _ hu => hs v u hu, h1], by rw [hs _ _ le_rfl]; exact h2⟩
  · obtain ⟨m, x, h1, h2, h3, h4⟩ := h.gauss hr q hq
    have hb := hb q (List.mem_append_left _ (List.mem_append_right _ hq))
    refine ⟨fun w u => if u ≤ t then m w u else s' w u, x, ?_, ?_, ?_, by rw [hs _ _ le_rfl]; exact h4⟩
    · intro w u hw
      show (if u ≤ t then m w u else s' w u) = _
      split
      · next hu => rw [h1 w u hw, hs w u hu]
      · rfl
    · intro w hw
      show Near _ _ (if t ≤ t then m w t else s' w t)
      rw [if_pos le_rfl, hs _ _ le_rfl]
      exact h2 w hw
    · rw [← h3]
      refine hb _ _ t fun v u _ hu => ?_
      show (if u ≤ t then m v u else s' v u) = _
      rw [if_pos hu]

theorem simPeriods_holds {A : Flo K} (hA : A.Exact) {o : SimOpts K} (h10 : o.eps < 10) {nb : Nat} {pl : Plan K}
    (hp : pl.Sound) (hd : ∀ q ∈ pl.all, Direct q) (hb : ∀ q ∈ pl.all, q.1.Backward) :
    ∀ n t xk s s', simPeriods A o nb pl [] n t xk s = .ok (true, s') → ∀ k : Nat, k < n → Holds o pl s' (t + k) := by
  intro n
  induction n with
  | zero => intro t xk s s' _ k hk; omega
  | succ n ih =>
    intro t xk s s' h k hk
    simp only [simPeriods, carryOn_nil] at h
    obtain ⟨r, h1, h⟩ := bind_ok_inv h
    split at h
    · simp at h
    · next hr =>
      obtain ⟨r1, r2, r3⟩ := r
      simp only [Bool.not_eq_false] at hr h
      subst hr
      cases k with
      | zero =>
        rw [Nat.cast_zero, add_zero]
        refine (simPeriod_holds hA h10 hp hd h1).later hb fun w u hu => ?_
        exact simPeriods_only A o nb pl [] n (t + 1) _ _ _ h w u (by simp) (fun hh => by omega)
      | succ k =>
        have := ih _ _ _ _ h k (by omega)
        rwa [show t + 1 + (k : Int) = t + (k + 1 : Nat) by push_cast; ring] at this

/-- When a simulation without goal seeking is reported as solved, then at the final values and for every simulated period the
equations of prolog and epilog hold exactly; with simultaneous updates (negative relaxation) those of the block hold up to the
threshold divided by the relaxation factor.

Missing for the full statement: equations solved numerically (see C31), formulas with leads (false, see the counterexample),
thresholds from 10 on (false, see the counterexample), and successive updates, for which the block equations hold near the
final values only. -/
theorem C35_solved_equations_hold_partial {A : Flo K} (hA : A.Exact) (o : SimOpts K) (h10 : o.eps < 10) (sort : SortBy)
    (passes nb : Nat) (eqs : List (Eqn K)) (e : Endo) (names : List (Option Nat))
    (hn : sort ≠ .none ∨ names = [] ∨ ∃ l : List Nat, names = l.map some ∧ l.Perm (List.range eqs.length))
    (he : e.Solved) (hown : e.posxk = eqs.map (·.own))
    (hq : ∀ q ∈ eqs, q.dup = false ∧ q.Explicit ∧ q.Backward)
    (t : Int) (n : Nat) (s s' : Store K) (h : simulate A o sort passes nb eqs e [] names t n s = .ok (true, s')) :
    ∃ b, order sort passes e (eqs.map (·.objs)) names = .ok b ∧ b.order.Perm (List.range eqs.length) ∧
      ∀ k : Nat, k < n →
        (∀ i ∈ b.pre ++ b.post, ∀ q, eqs[i]? = some q → q.HoldsAt s' (t + k)) ∧
        (o.relax < 0 → ∀ i ∈ b.inter, ∀ q, eqs[i]? = some q → q.HoldsWithin o.eps o.relax s' (t + k)) ∧
        (0 ≤ o.relax → ∀ i ∈ b.inter, ∀ q, eqs[i]? = some q →
          q.HoldsNearby o.eps o.relax (b.inter.filterMap (e.posxk[·]?)) s' (t + k)) := by
  unfold simulate at h
  obtain ⟨b, hb, h⟩ := bind_ok_inv h
  have hperm : b.order.Perm (List.range eqs.length) := by
    by_cases hs : sort = .none
    · subst hs
      have hn' : names = [] ∨ ∃ l : List Nat, names = l.map some ∧ l.Perm (List.range (eqs.map (·.objs)).length) := by
        rw [List.length_map]
        exact hn.resolve_left fun hh => hh rfl
      obtain ⟨b', h1, h2, _⟩ := C32_unsorted_partial passes e (eqs.map (·.objs)) names hn'
      rw [hb, Res.ok.injEq] at h1
      rw [h1]
      simpa using h2
    · obtain ⟨b', h1, h2⟩ := C32_order_is_a_permutation sort hs passes e (eqs.map (·.objs)) names
      rw [hb, Res.ok.injEq] at h1
      rw [h1]
      simpa using h2
  have hnd : b.order.Nodup := hperm.nodup_iff.2 List.nodup_range
  have hp := planOf_sound he hb hnd
  have own : ∀ i q, unkAt eqs e i = some q → q.2 = q.1.own := by
    intro i q hi
    obtain ⟨h1, h2⟩ := unkAt_some hi
    rw [hown, List.getElem?_map, h1] at h2
    exact (Option.some.inj h2).symm
  have mem : ∀ q ∈ (planOf eqs e b).all, q.2 = q.1.own ∧ q.1 ∈ eqs := by
    intro q hq
    rw [planOf_all, List.mem_filterMap] at hq
    obtain ⟨i, _, hi⟩ := hq
    exact ⟨own i q hi, List.mem_of_getElem? (unkAt_some hi).1⟩
  have at' : ∀ i q, eqs[i]? = some q → unkAt eqs e i = some (q, q.own) := by
    intro i q hi
    unfold unkAt
    rw [hown, List.getElem?_map, hi]
    rfl
  have hunks : unks (planOf eqs e b).inter = b.inter.filterMap (e.posxk[·]?) := by
    unfold unks planOf
    simp only
    rw [List.map_filterMap]
    refine List.filterMap_congr fun i _ => ?_
    unfold unkAt
    rw [hown, List.getElem?_map]
    cases eqs[i]? <;> rfl
  refine ⟨b, hb, hperm, fun k hk => ?_⟩
  have := simPeriods_holds hA h10 hp (fun q hq' => ⟨(hq _ (mem q hq').2).1, (mem q hq').1, (hq _ (mem q hq').2).2.1⟩)
    (fun q hq' => (hq _ (mem q hq').2).2.2) n t _ _ _ h k hk
  refine ⟨?_, ?_, ?_⟩
  · intro i hi q hiq
    refine this.ends (q, q.own) ?_
    simp only [planOf]
    rcases List.mem_append.1 hi with hi | hi
    · exact List.mem_append_left _ (List.mem_filterMap.2 ⟨i, hi, at' i q hiq⟩)
    · exact List.mem_append_right _ (List.mem_filterMap.2 ⟨i, hi, at' i q hiq⟩)
  · intro hr i hi q hiq
    exact this.jacobi hr (q, q.own) (List.mem_filterMap.2 ⟨i, hi, at' i q hiq⟩)
  · intro hr i hi q hiq
    rw [← hunks]
    exact this.gauss hr (q, q.own) (List.mem_filterMap.2 ⟨i, hi, at' i q hiq⟩)

/-- With threshold 0 every equation holds exactly, whatever the way of updating. -/
theorem C35_threshold_zero_partial {A : Flo K} (hA : A.Exact) (o : SimOpts K) (h0 : o.eps = 0) (hr : o.relax ≠ 0)
    (sort : SortBy) (passes nb : Nat) (eqs : List (Eqn K)) (e : Endo) (names : List (Option Nat))
    (hn : sort ≠ .none ∨ names = [] ∨ ∃ l : List Nat, names = l.map some ∧ l.Perm (List.range eqs.length))
    (he : e.Solved) (hown : e.posxk = eqs.map (·.own))
    (hq : ∀ q ∈ eqs, q.dup = false ∧ q.Explicit ∧ q.Backward)
    (t : Int) (n : Nat) (s s' : Store K) (h : simulate A o sort passes nb eqs e [] names t n s = .ok (true, s'))
    (k : Nat) (hk : k < n) (q : Eqn K) (hm : q ∈ eqs) : q.HoldsAt s' (t + k) := by
  obtain ⟨b, _, hp, hall⟩ := C35_solved_equations_hold_partial hA o (by rw [h0]; norm_num) sort passes nb eqs e names hn he
    hown hq t n s s' h
  obtain ⟨i, hi⟩ := List.mem_iff_getElem?.1 hm
  have hlt := (List.getElem?_eq_some_iff.1 hi).1
  have hib : i ∈ b.order := hp.mem_iff.2 (List.mem_range.2 hlt)
  obtain ⟨h1, h2, h3⟩ := hall k hk
  unfold Blocks.order at hib
  rw [List.mem_append, List.mem_append] at hib
  have close : ∀ x y : K, |y - x| * |o.relax| ≤ o.eps * max 1 |y| → x = y := by
    intro x y hxy
    rw [h0, zero_mul] at hxy
    have h4 : 0 < |o.relax| := abs_pos.2 hr
    have h5 : |y - x| = 0 := by
      have := abs_nonneg (y - x)
      rcases this.lt_or_eq with h6 | h6
      · exact absurd hxy (not_le.2 (mul_pos h6 h4))
      · exact h6.symm
    exact (sub_eq_zero.1 (abs_eq_zero.1 h5)).symm
  rcases hib with (hib | hib) | hib
  · exact h1 i (List.mem_append_left _ hib) q hi
  · by_cases hneg : o.relax < 0
    · obtain ⟨x, h4, h5⟩ := h2 hneg i hib q hi
      unfold Eqn.HoldsAt
      rw [h4, close _ _ h5]
    · obtain ⟨m, x, h4, h5, h6, h7⟩ := h3 (not_lt.1 hneg) i hib q hi
      have : m = s' := by
        funext w u
        by_cases hw : w ∈ b.inter.filterMap (e.posxk[·]?) ∧ u = t + k
        · have := h5 w hw.1
          unfold Near at this
          rw [h0, zero_mul] at this
          rw [hw.2]
          exact (sub_eq_zero.1 (abs_eq_zero.1 (le_antisymm this (abs_nonneg _)))).symm
        · exact h4 w u hw
      unfold Eqn.HoldsAt
      rw [← close _ _ h7, ← h6, this]
  · exact h1 i (List.mem_append_right _ hib) q hi

/-! ## Examples -/

theorem ratFlo_exact : ratFlo.Exact where
  add _ _ := rfl
  sub _ _ := rfl
  mul _ _ := rfl
  div _ _ := rfl
  abs a := by
    show (if a < 0 then -a else a) = |a|
    split
    · next h => exact (abs_of_neg h).symm
    · next h => exact (abs_of_nonneg (not_lt.1 h)).symm
  lt a b := by show decide (a < b) = true ↔ _; exact decide_eq_true_iff
  eq a b := by show decide (a = b) = true ↔ _; exact decide_eq_true_iff
  rat n d := by show mkRat n d = _; exact Rat.mkRat_eq_div n d
  zero := by decide +kernel

theorem exEqs_explicit : ∀ q ∈ exEqs, q.dup = false ∧ q.Explicit ∧ q.Backward := by
  intro q hq
  simp only [exEqs, List.mem_cons, List.not_mem_nil, or_false] at hq
  rcases hq with rfl | rfl
  · refine ⟨rfl, fun s s' t h => ?_, fun s s' t h => ?_⟩
    · show Res.ok _ = Res.ok _
      rw [h 1 t (by simp) (by simp), h 2 t (by simp) (by simp)]
    · show Res.ok _ = Res.ok _
      rw [h 1 t (by simp) le_rfl, h 2 t (by simp) le_rfl]
  · refine ⟨rfl, fun s s' t h => ?_, fun s s' t h => ?_⟩
    · show Res.ok _ = Res.ok _
      rw [h 0 t (by simp) (by simp)]
    · show Res.ok _ = Res.ok _
      rw [h 0 t (by simp) le_rfl]

theorem endsWith_iff {r : Res (Bool × Store ℚ)} {ok : Bool} {P : Store ℚ → Bool} :
    endsWith r ok P = true ↔ ∃ s', r = .ok (ok, s') ∧ P s' = true := by
  unfold endsWith
  cases r with
  | ok p => obtain ⟨a, b⟩ := p; simp
  | err => simp
  | ub => simp

/-- The two equations of `exEqs`, one before that uses the exogenous variable only, one after that uses both. -/
def exModel : List (Eqn ℚ) :=
  exEqs ++ [⟨[some 0, some 1], false, 3, fun s t => .ok (s 0 t + s 1 t)⟩,
    ⟨[some 4, some 2], false, 4, fun s t => .ok (s 4 (t - 1) + s 2 t)⟩]

def exModelEndo : Endo := Endo.link 5 [0, 1, 3, 4]

def exModelOpts (relax : ℚ) : SimOpts ℚ := ⟨mkRat 1 1000, relax, 100, .tm1, newtonDefault, fun _ => 0⟩

theorem exModel_explicit : ∀ q ∈ exModel, q.dup = false ∧ q.Explicit ∧ q.Backward := by
  intro q hq
  rcases List.mem_append.1 hq with hq | hq
  · exact exEqs_explicit q hq
  · simp only [List.mem_cons, List.not_mem_nil, or_false] at hq
    rcases hq with rfl | rfl
    · refine ⟨rfl, fun s s' t h => ?_, fun s s' t h => ?_⟩
      · show Res.ok _ = Res.ok _
        rw [h 0 t (by simp) (by simp), h 1 t (by simp) (by simp)]
      · show Res.ok _ = Res.ok _
        rw [h 0 t (by simp) le_rfl, h 1 t (by simp) le_rfl]
    · refine ⟨rfl, fun s s' t h => ?_, fun s s' t h => ?_⟩
      · show Res.ok _ = Res.ok _
        rw [h 4 (t - 1) (by simp) (by simp), h 2 t (by simp) (by simp)]
      · show Res.ok _ = Res.ok _
        rw [h 4 (t - 1) (by simp) (by omega), h 2 t (by simp) le_rfl]

/-- The hypotheses of the theorem are met with simultaneous updates, and what it says of the second period. -/
example : ∃ s', simulate ratFlo (exModelOpts (mkRat (-1) 2)) .connex 5 6 exModel exModelEndo [] [] 1 2 exStore =
      .ok (true, s') ∧ s' 4 2 = s' 4 1 + s' 2 2 ∧ s' 3 2 = s' 0 2 + s' 1 2 ∧
    |s' 0 2 - (s' 1 2 / 4 + s' 2 2)| * |mkRat (-1) 2| ≤ mkRat 1 1000 * max 1 |s' 0 2| := by
  obtain ⟨s', h, _⟩ := endsWith_iff.1 (show endsWith (simulate ratFlo (exModelOpts (mkRat (-1) 2)) .connex 5 6 exModel
    exModelEndo [] [] 1 2 exStore) true (fun _ => true) = true by decide +kernel)
  refine ⟨s', h, ?_⟩
  obtain ⟨b, hb, _, hall⟩ := C35_solved_equations_hold_partial ratFlo_exact _ (by decide +kernel) .connex 5 6 exModel
    exModelEndo [] (Or.inl (by decide)) (C33_tables_without_exchange 5 [0, 1, 3, 4] (by decide) (by decide)).1 rfl
    exModel_explicit 1 2 exStore s' h
  have hb' : order .connex 5 exModelEndo (exModel.map (·.objs)) [] = .ok ⟨[3], [0, 1], [2]⟩ := by decide +kernel
  rw [hb', Res.ok.injEq] at hb
  subst hb
  obtain ⟨h1, h2, _⟩ := hall 1 (by decide)
  refine ⟨?_, ?_, ?_⟩
  · have := h1 3 (by decide) _ rfl
    simp only [Eqn.HoldsAt, Res.ok.injEq] at this
    exact this.symm
  · have := h1 2 (by decide) _ rfl
    simp only [Eqn.HoldsAt, Res.ok.injEq] at this
    exact this.symm
  · obtain ⟨x, h3, h4⟩ := h2 (by decide +kernel) 0 (by decide) _ rfl
    simp only [Res.ok.injEq] at h3
    rw [← h3] at h4
    exact h4

/-- With successive updates the same model is solved too. -/
example : ∃ s', simulate ratFlo (exModelOpts 1) .both 5 6 exModel exModelEndo [] [] 1 2 exStore = .ok (true, s') := by
  obtain ⟨s', h, _⟩ := endsWith_iff.1 (show endsWith (simulate ratFlo (exModelOpts 1) .both 5 6 exModel
    exModelEndo [] [] 1 2 exStore) true (fun _ => true) = true by decide +kernel)
  exact ⟨s', h⟩

/-- A block solved exactly after some turns, for threshold 0. -/
def exZero : List (Eqn ℚ) :=
  [⟨[some 1, some 2], false, 0, fun s t => .ok (if s 1 t > 5 then s 2 t else 0)⟩,
   ⟨[some 0], false, 1, fun s t => .ok (s 0 t + 1)⟩]

example : ∃ s', simulate ratFlo ⟨0, 1, 100, .tm1, newtonDefault, fun _ => 0⟩ .both 5 6 exZero (Endo.link 3 [0, 1]) [] [] 1 2
    exStore = .ok (true, s') := by
  obtain ⟨s', h, _⟩ := endsWith_iff.1 (show endsWith (simulate ratFlo ⟨0, 1, 100, .tm1, newtonDefault, fun _ => 0⟩ .both 5 6
    exZero (Endo.link 3 [0, 1]) [] [] 1 2 exStore) true (fun _ => true) = true by decide +kernel)
  exact ⟨s', h⟩

/-- Successive updates: `0 := 1.0009`, `1 := 1000000 (0 - 1)` with a use of 1 that does not matter, from 1 and 900.  The first
turn moves 0 by less than the threshold and gives 900 for 1; convergence is reported and the values of before the turn are
stored.  At these the second equation gives 0 instead of 900. -/
theorem C35_successive_counterexample :
    endsWith (simulate ratFlo ⟨mkRat 1 1000, 1, 100, .asis, newtonDefault, fun _ => 0⟩ .connex 5 3
        [⟨[some 1], false, 0, fun s t => .ok (mkRat 10009 10000 + 0 * s 1 t)⟩,
         ⟨[some 0], false, 1, fun s t => .ok (1000000 * (s 0 t - 1))⟩] (Endo.link 2 [0, 1]) [] [] 1 1
        (fun w _ => if w = 0 then 1 else 900)) true
      (fun s => decide (s 0 1 = 1 ∧ s 1 1 = 900 ∧ 1000000 * (s 0 1 - 1) = 0)) = true := by decide +kernel

/-- A threshold of 10: values that are missing at the start count as a distance of 10, hence convergence is reported after
one turn and the missing values are stored. -/
theorem C35_large_threshold_counterexample :
    endsWith (simulate ratFlo ⟨10, -1, 100, .asis, newtonDefault, fun _ => 0⟩ .connex 5 3
        [⟨[some 1], false, 0, fun _ _ => .ok 7⟩, ⟨[some 0], false, 1, fun _ _ => .ok 8⟩] (Endo.link 2 [0, 1]) [] [] 1 1
        (fun _ _ => ratFlo.na)) true
      (fun s => decide (s 0 1 = ratFlo.na ∧ s 1 1 = ratFlo.na)) = true := by decide +kernel

/-- A lead: equation 0 uses the next value of 1, which is computed afterwards.  The simulation is reported as solved but
equation 0 does not hold at the first period. -/
theorem C35_lead_counterexample :
    endsWith (simulate ratFlo (exModelOpts 1) .connex 5 4
        [⟨[some 1], false, 0, fun s t => .ok (s 1 (t + 1))⟩, ⟨[some 2], false, 1, fun s t => .ok (s 2 t)⟩]
        (Endo.link 3 [0, 1]) [] [] 1 2 exStore) true
      (fun s => decide (s 0 1 = 0 ∧ s 1 2 = 10)) = true := by decide +kernel

end Iode.Sim
