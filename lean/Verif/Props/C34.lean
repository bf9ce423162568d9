import Verif.Props.C33

/-!
# C34: epilog equations feed nobody before them
-/
namespace Iode.Sim

theorem DependsOn.succ {e : Endo} {objss : List (List (Option Nat))} (he : e.Solved) {i j : Nat}
    (h : DependsOn e objss i j) (hj : j < objss.length) : some i ∈ (allSuccs e objss).getD j [] := by
  obtain ⟨objs, ho, hm⟩ := h.named he
  unfold allSuccs
  rw [getD_mapIdx _ _ _ _ (List.getElem?_eq_getElem hj), List.mem_flatten]
  refine ⟨((namedPreds e i objs).filter (· = some j)).map fun _ => some i, ?_, ?_⟩
  · rw [List.mem_mapIdx]
    obtain ⟨hi, ho'⟩ := List.getElem?_eq_some_iff.1 ho
    exact ⟨i, hi, by rw [ho']⟩
  · rw [List.mem_map]
    exact ⟨some j, List.mem_filter.2 ⟨hm, by simp⟩, rfl⟩

/-- No equation placed anywhere before an equation of the epilog depends on it, for every sort option. -/
theorem C34_epilog_feeds_nobody_before (sort : SortBy) (passes : Nat) (e : Endo) (he : e.Solved)
    (objss : List (List (Option Nat))) (eqs : List (Option Nat)) (b : Blocks)
    (h : order sort passes e objss eqs = .ok b) (a c i j : Nat) (hac : a < c) (hc : b.pre.length + b.inter.length ≤ c)
    (hi : b.order[a]? = some i) (hj : b.order[c]? = some j) : ¬ DependsOn e objss i j := by
  intro hd
  have hperm : b.order.Nodup ∨ b.post = [] := by
    by_cases hs : sort = .none
    · rcases order_blocks h with ⟨_, h2⟩ | ⟨_, _⟩
      · exact Or.inr h2
      · refine Or.inr ?_
        subst hs
        simp only [order] at h
        split at h
        · simp only [Res.ok.injEq] at h; subst h; rfl
        · cases hn : namedOrder objss.length eqs with
          | ok l => simp only [hn, Res.bind, Res.ok.injEq] at h; subst h; rfl
          | err => simp [hn, Res.bind] at h
          | ub => simp [hn, Res.bind] at h
    · obtain ⟨b', h', hp⟩ := C32_order_is_a_permutation sort hs passes e objss eqs
      rw [h] at h'
      simp only [Res.ok.injEq] at h'
      subst h'
      exact Or.inl (hp.nodup_iff.2 List.nodup_range)
  have hcpost : b.post[c - (b.pre.length + b.inter.length)]? = some j := by
    unfold Blocks.order at hj
    rw [List.getElem?_append_right (by rw [List.length_append]; exact hc), List.length_append] at hj
    exact hj
  have hjpost : j ∈ b.post := List.mem_of_getElem? hcpost
  rcases hperm with hnd | hnil
  · rcases order_blocks h with ⟨_, h2⟩ | ⟨h1, h2⟩
    · rw [h2] at hjpost; cases hjpost
    · obtain ⟨hg1, hg2, _⟩ := decompose_both e objss
      rw [← h1, ← h2] at hg2
      rw [← h1] at hg1
      -- the place of `j` when the epilog was built
      generalize hk : c - (b.pre.length + b.inter.length) = k at hcpost
      obtain ⟨hkl, hkj⟩ := List.getElem?_eq_some_iff.1 hcpost
      have hplace : (b.pre ++ b.post.reverse)[b.pre.length + (b.post.length - 1 - k)]? = some j := by
        rw [List.getElem?_append_right (by omega), Nat.add_sub_cancel_left,
          List.getElem?_reverse (by omega)]
        have : b.post.length - 1 - (b.post.length - 1 - k) = k := by omega
        rw [this]; exact hcpost
      have hready := hg2.before (by omega) hplace
      have hjlt : j < objss.length := by
        have hb1 : ∀ i ∈ b.pre, i < (allSuccs e objss).length := by
          intro i hi
          rw [allSuccs_length, ← allPreds_length e]
          exact hg1.bound (fun _ h => by cases h) i hi
        have := hg2.bound hb1 j (List.mem_append_right _ (List.mem_reverse.2 hjpost))
        rwa [allSuccs_length] at this
      have himem := ready_mem hready (hd.succ he hjlt)
      rw [List.take_append, List.take_of_length_le (by omega), Nat.add_sub_cancel_left] at himem
      unfold Blocks.order at hnd hi
      rw [List.append_assoc] at hnd
      rcases List.mem_append.1 himem with him | him
      · -- a prolog equation would have `j` in the prolog
        obtain ⟨m, hm⟩ := List.getElem?_of_mem him
        have := List.mem_of_mem_take (C33_prolog_needs_earlier_only sort passes e he objss eqs b h m i j hm hd)
        exact (List.nodup_append.1 hnd).2.2 j this j (List.mem_append_right _ hjpost) rfl
      · -- an equation of the epilog placed earlier comes later in the order
        rw [List.take_reverse, List.mem_reverse] at him
        obtain ⟨m, hm⟩ := List.getElem?_of_mem him
        rw [List.getElem?_drop] at hm
        have hpos : (b.pre ++ (b.inter ++ b.post))[b.pre.length + (b.inter.length +
            (b.post.length - (b.post.length - 1 - k) + m))]? = some i := by
          rw [List.getElem?_append_right (by omega), Nat.add_sub_cancel_left,
            List.getElem?_append_right (by omega), Nat.add_sub_cancel_left]
          exact hm
        rw [List.append_assoc] at hi
        have heq := (List.getElem?_inj (List.getElem?_eq_some_iff.1 hi).1 hnd).1 (hi.trans hpos.symm)
        omega
  · rw [hnil] at hjpost; cases hjpost

/-- `4: f(3, 2)` of the model of C32 is in the epilog, and `3` is before it; `4` depends on `3` but not the other way round. -/
example : order .both 5 exEndo exObjs [] = .ok ⟨[0], [1, 3, 2], [4]⟩ ∧ exEndo.Solved ∧ DependsOn exEndo exObjs 4 3 := by
  refine ⟨by decide +kernel, ?_, by decide, [some 3, some 2], 3, rfl, by decide, rfl⟩
  exact (C33_tables_without_exchange 6 [0, 1, 2, 3, 4] (by decide) (by decide)).1

/-- A block followed by two epilog equations, the second of which uses the first: `0: f(1)`, `1: f(0)`, `2: f(3)`, `3: f(0)`. -/
example : order .connex 5 (Endo.link 4 [0, 1, 2, 3]) [[some 1], [some 0], [some 3], [some 0]] [] =
    .ok ⟨[], [0, 1], [3, 2]⟩ := by
  decide +kernel

end Iode.Sim
