import Verif.Props.C32

/-!
# C33: prolog equations only need earlier results
-/
namespace Iode.Sim

theorem ready_mem {placed : List Nat} {l : List (Option Nat)} (h : ready placed l = true) {j : Nat} (hj : some j ∈ l) :
    j ∈ placed := by
  simp only [ready, List.all_eq_true] at h
  simpa using h _ hj

/-- The position of an equation that another one depends on is entered in the list of its predecessors. -/
theorem DependsOn.named {e : Endo} {objss : List (List (Option Nat))} (he : e.Solved) {i j : Nat}
    (h : DependsOn e objss i j) : ∃ objs, objss[i]? = some objs ∧ some j ∈ namedPreds e i objs := by
  obtain ⟨hne, objs, p, ho, hp, hj⟩ := h
  refine ⟨objs, ho, ?_⟩
  unfold namedPreds
  rw [List.mem_map]
  refine ⟨p, List.mem_filterMap.2 ⟨some p, hp, rfl⟩, ?_⟩
  have h1 := he j p hj
  unfold predOf
  rw [if_neg, if_neg, h1]
  · rw [h1]
    intro hh
    simp only [Option.some.injEq] at hh
    exact hne hh.symm
  · intro hh
    have := he i p hh
    rw [h1] at this
    simp only [Option.some.injEq] at this
    exact hne this.symm

theorem getD_mapIdx {α β : Type} (f : Nat → α → β) (l : List α) (i : Nat) (d : β) {a : α} (h : l[i]? = some a) :
    (l.mapIdx f).getD i d = f i a := by
  simp [List.getElem?_mapIdx, h]

theorem DependsOn.pred {e : Endo} {objss : List (List (Option Nat))} (he : e.Solved) {i j : Nat}
    (h : DependsOn e objss i j) : some j ∈ (allPreds e objss).getD i [] := by
  obtain ⟨objs, ho, hj⟩ := h.named he
  unfold allPreds
  rw [getD_mapIdx _ _ _ _ ho]
  exact List.mem_append_left _ hj

theorem order_blocks {sort : SortBy} {passes : Nat} {e : Endo} {objss : List (List (Option Nat))}
    {eqs : List (Option Nat)} {b : Blocks} (h : order sort passes e objss eqs = .ok b) :
    (b.pre = [] ∧ b.post = []) ∨ (b.pre = (decompose e objss).pre ∧ b.post = (decompose e objss).post) := by
  cases sort with
  | none =>
    simp only [order] at h
    split at h
    · simp only [Res.ok.injEq] at h; subst h; exact Or.inl ⟨rfl, rfl⟩
    · cases hn : namedOrder objss.length eqs with
      | ok l => simp only [hn, Res.bind, Res.ok.injEq] at h; subst h; exact Or.inl ⟨rfl, rfl⟩
      | err => simp [hn, Res.bind] at h
      | ub => simp [hn, Res.bind] at h
  | connex => simp only [order, Res.ok.injEq] at h; subst h; exact Or.inr ⟨rfl, rfl⟩
  | both => simp only [order, Res.ok.injEq] at h; subst h; exact Or.inr ⟨rfl, rfl⟩

/-- An equation of the prolog depends only on equations placed before it in the prolog, for every sort option. -/
theorem C33_prolog_needs_earlier_only (sort : SortBy) (passes : Nat) (e : Endo) (he : e.Solved)
    (objss : List (List (Option Nat))) (eqs : List (Option Nat)) (b : Blocks)
    (h : order sort passes e objss eqs = .ok b) (k i j : Nat) (hi : b.pre[k]? = some i) (hd : DependsOn e objss i j) :
    j ∈ b.pre.take k := by
  rcases order_blocks h with ⟨h1, _⟩ | ⟨h1, _⟩
  · rw [h1] at hi; cases hi
  · obtain ⟨hg, _, _⟩ := decompose_both e objss
    rw [h1] at hi ⊢
    exact ready_mem (hg.before (Nat.zero_le _) hi) (hd.pred he)

/-- The prolog is as long as it can be for equations without coefficients: an equation left out of it depends on an
equation left out of it. -/
theorem C33_prolog_complete_partial (sort : SortBy) (hs : sort ≠ .none) (passes : Nat) (e : Endo)
    (hr : ∀ p j, e.eqOf p = some j → e.posxk[j]? = some p)
    (objss : List (List (Option Nat))) (eqs : List (Option Nat)) (b : Blocks)
    (h : order sort passes e objss eqs = .ok b) (i : Nat) (objs : List (Option Nat)) (ho : objss[i]? = some objs)
    (hc : none ∉ objs) (hi : i ∉ b.pre) : ∃ j, DependsOn e objss i j ∧ j ∉ b.pre := by
  have h1 : b.pre = buildList (allPreds e objss) [] := by
    cases sort with
    | none => exact absurd rfl hs
    | connex => simp only [order, Res.ok.injEq] at h; subst h; rfl
    | both => simp only [order, Res.ok.injEq] at h; subst h; rfl
  have hlt : i < (allPreds e objss).length := by
    rw [allPreds_length]
    exact (List.getElem?_eq_some_iff.1 ho).1
  rcases buildList_maximal (allPreds e objss) [] List.nodup_nil (fun _ h => by cases h) hlt with h2 | h2
  · rw [h1] at hi; exact absurd h2 hi
  · rw [← h1] at h2
    unfold allPreds at h2
    rw [getD_mapIdx _ _ _ _ ho] at h2
    have hz : objs.filter (· = none) = [] := by
      rw [List.filter_eq_nil_iff]
      intro a ha hn
      simp only [decide_eq_true_eq] at hn
      exact hc (hn ▸ ha)
    simp only [predsOf, hz, List.length_nil, List.replicate_zero, List.append_nil] at h2
    simp only [ready, List.all_eq_false] at h2
    obtain ⟨o, hm, hf⟩ := h2
    cases o with
    | none => simp at hf
    | some j =>
      simp only [decide_eq_true_eq] at hf
      refine ⟨j, ?_, hf⟩
      unfold namedPreds at hm
      rw [List.mem_map] at hm
      obtain ⟨p, hp, he⟩ := hm
      obtain ⟨o, ho', hp⟩ := List.mem_filterMap.1 hp
      simp only [id] at hp
      subst hp
      unfold predOf at he
      split at he
      · cases he
      · split at he
        · cases he
        · next hne =>
          refine ⟨?_, objs, p, ho, ho', hr p j he⟩
          rintro rfl
          exact hne he

theorem foldl_set_getD (owns : List Nat) : ∀ (is : List Nat) (r : List (Option Nat)) (p : Nat),
    (∀ i ∈ is, owns.getD i 0 < r.length) →
    (is.foldl (fun r i => r.set (owns.getD i 0) (some i)) r).getD p none =
      match is.reverse.find? (fun i => owns.getD i 0 = p) with | some i => some i | none => r.getD p none := by
  intro is
  induction is with
  | nil => intro r p _; rfl
  | cons i is ih =>
    intro r p h
    rw [List.foldl_cons, ih]
    · rw [List.reverse_cons, List.find?_append]
      cases hf : is.reverse.find? (fun i => owns.getD i 0 = p) with
      | some k => rfl
      | none =>
        have hi := h i (List.mem_cons_self ..)
        by_cases hp : owns.getD i 0 = p
        · subst hp
          simp only [List.getD_eq_getElem?_getD, List.getElem?_set_self, hi, Option.or, List.find?_cons,
            decide_true]
          simp only [List.getD_eq_getElem?_getD] at hi
          rw [List.getElem?_set_self hi]
          rfl
        · have : ¬ decide (owns.getD i 0 = p) = true := by simpa using hp
          simp only [Option.or, List.find?_cons, List.find?_nil]
          simp only [hp, decide_false]
          simp only [List.getD_eq_getElem?_getD] at hp ⊢
          rw [List.getElem?_set_ne hp]
    · intro j hj
      rw [List.length_set]
      exact h j (List.mem_cons_of_mem _ hj)

/-- Before any exchange the table of equations by variable finds the equation with the name of the variable. -/
theorem link_rev {nv : Nat} {owns : List Nat} (hd : owns.Nodup) (hb : ∀ p ∈ owns, p < nv) (p j : Nat) :
    (Endo.link nv owns).rev.getD p none = some j ↔ owns[j]? = some p := by
  unfold Endo.link
  simp only
  rw [foldl_set_getD]
  · constructor
    · intro h
      cases hf : (List.range owns.length).reverse.find? (fun i => owns.getD i 0 = p) with
      | none =>
        rw [hf] at h
        simp only [List.getD_eq_getElem?_getD, List.getElem?_replicate] at h
        split at h <;> simp at h
      | some k =>
        rw [hf] at h
        simp only [Option.some.injEq] at h
        subst h
        have hm := List.mem_of_find?_eq_some hf
        have hk := List.find?_some hf
        rw [List.mem_reverse, List.mem_range] at hm
        simp only [decide_eq_true_eq, List.getD_eq_getElem?_getD, List.getElem?_eq_getElem hm, Option.getD_some] at hk
        rw [List.getElem?_eq_getElem hm, hk]
    · intro h
      obtain ⟨hj, hp⟩ := List.getElem?_eq_some_iff.1 h
      cases hf : (List.range owns.length).reverse.find? (fun i => owns.getD i 0 = p) with
      | none =>
        rw [List.find?_eq_none] at hf
        have := hf j (by rw [List.mem_reverse]; exact List.mem_range.2 hj)
        simp [List.getD_eq_getElem?_getD, h] at this
      | some k =>
        have hm := List.mem_of_find?_eq_some hf
        have hk := List.find?_some hf
        rw [List.mem_reverse, List.mem_range] at hm
        simp only [decide_eq_true_eq, List.getD_eq_getElem?_getD, List.getElem?_eq_getElem hm, Option.getD_some] at hk
        have : k = j := (List.Nodup.getElem_inj_iff hd).1 (hk.trans hp.symm)
        simp [this]
  · intro i hi
    rw [List.mem_range] at hi
    rw [List.length_replicate, List.getD_eq_getElem?_getD, List.getElem?_eq_getElem hi]
    exact hb _ (List.getElem_mem hi)

/-- Before any exchange the tables agree: equation names are distinct and are names of variables. -/
theorem link_eqOf {nv : Nat} {owns : List Nat} (hd : owns.Nodup) (hb : ∀ p ∈ owns, p < nv) (p j : Nat) :
    (Endo.link nv owns).eqOf p = some j ↔ owns[j]? = some p := by
  have hrev := link_rev hd hb p j
  unfold Endo.eqOf
  split
  · next h =>
    have h' : owns[p]? = some p := h
    constructor
    · intro hj
      simp only [Option.some.injEq] at hj
      rw [← hj]; exact h'
    · intro hj
      obtain ⟨h1, h2⟩ := List.getElem?_eq_some_iff.1 hj
      obtain ⟨h3, h4⟩ := List.getElem?_eq_some_iff.1 h'
      rw [(List.Nodup.getElem_inj_iff hd).1 (h4.trans h2.symm)]
  · exact hrev

/-- In a simulation without exchanges the hypotheses on the tables hold. -/
theorem C33_tables_without_exchange (nv : Nat) (owns : List Nat) (hd : owns.Nodup) (hb : ∀ p ∈ owns, p < nv) :
    (Endo.link nv owns).Solved ∧ ∀ p j, (Endo.link nv owns).eqOf p = some j → (Endo.link nv owns).posxk[j]? = some p :=
  ⟨fun j p h => (link_eqOf hd hb p j).2 h, fun p j h => (link_eqOf hd hb p j).1 h⟩

/-- A chain `0: f(x)`, `1: f(0)`, `2: f(1, 0)`: all in the prolog. -/
example : order .both 5 (Endo.link 4 [0, 1, 2]) [[some 3], [some 0], [some 1, some 0]] [] = .ok ⟨[0, 1, 2], [], []⟩ ∧
    DependsOn (Endo.link 4 [0, 1, 2]) [[some 3], [some 0], [some 1, some 0]] 2 1 := by
  refine ⟨by decide +kernel, by decide, [some 1, some 0], 1, rfl, by decide, rfl⟩

/-- Positions that do not coincide: the equations solve the variables 3, 1 and 2. -/
example : order .connex 5 (Endo.link 4 [3, 1, 2]) [[some 1], [some 0], [some 3]] [] = .ok ⟨[1, 0, 2], [], []⟩ := by
  decide +kernel

/-- The place of a coefficient counts as equation 0: `0: c * x` is not recognised as a prolog equation and is solved with the
block `1: f(0, 2)`, `2: f(1)` again and again. -/
theorem C33_prolog_complete_counterexample :
    order .connex 5 (Endo.link 4 [0, 1, 2]) [[none, some 3], [some 0, some 2], [some 1]] [] = .ok ⟨[], [0, 1, 2], []⟩ ∧
      order .connex 5 (Endo.link 4 [0, 1, 2]) [[some 3], [some 0, some 2], [some 1]] [] = .ok ⟨[0], [1, 2], []⟩ := by
  decide +kernel

end Iode.Sim
