import Verif.Model.EstPrep
import Verif.Spec.EstPrep
import Verif.Lemmas.LecLink
import Verif.Lemmas.SMap
import Verif.Lemmas.Names
import Mathlib.Data.Finset.Card
import Mathlib.Data.Finset.Filter
import Mathlib.Data.List.Nodup

/-! # Lemmas on the linking of a block of equations -/
namespace Iode.EstPrep

open Iode.Lec Iode.Spec.EstPrep

variable {K : Type} [Field K] [LinearOrder K]

/-! ### Positions in a sorted map -/

/-- The keys below `x`. -/
def below {V : Type} (m : SMap V) (x : Name) : Finset Name := (SMap.keys m).toFinset.filter fun y => nameLt y x = true

theorem mem_below {V : Type} {m : SMap V} {x y : Name} : y ∈ below m x ↔ y ∈ SMap.keys m ∧ nameLt y x = true := by
  simp [below]

theorem nameLt_asymm {a b : Name} (h : nameLt a b = true) : nameLt b a = false := by
  cases hb : nameLt b a with
  | false => rfl
  | true => have := SMap.nameLt_trans h hb; rw [SMap.nameLt_irrefl] at this; cases this

theorem indexOf_below {V : Type} {x : Name} (hx : toKey .scalars x = x) : ∀ {m : SMap V}, SMap.Sorted m → x ∈ SMap.keys m →
    indexOf .scalars m x = some (below m x).card
  | [], _, h => by simp [SMap.keys] at h
  | (k, v) :: l, hs, h => by
    by_cases hk : k = x
    · subst hk
      have : below ((k, v) :: l) k = ∅ := by
        ext y
        simp only [mem_below, Finset.notMem_empty, iff_false, not_and]
        intro hy
        rcases List.mem_cons.1 hy with h' | h'
        · subst h'; simp [SMap.nameLt_irrefl]
        · simp [nameLt_asymm (hs.1 y h')]
      rw [this]
      simp [indexOf, hx, List.findIdx?_cons]
    · have hm : x ∈ SMap.keys l := by
        rcases List.mem_cons.1 h with h' | h'
        · exact absurd h'.symm hk
        · exact h'
      have ih := indexOf_below hx hs.2 hm
      have hb : below ((k, v) :: l) x = insert k (below l x) := by
        ext y
        simp only [mem_below, Finset.mem_insert]
        constructor
        · rintro ⟨h1, h2⟩
          rcases List.mem_cons.1 h1 with h' | h'
          · exact Or.inl h'
          · exact Or.inr ⟨h', h2⟩
        · rintro (h' | ⟨h1, h2⟩)
          · subst h'; exact ⟨List.mem_cons_self, hs.1 x hm⟩
          · exact ⟨List.mem_cons_of_mem _ h1, h2⟩
      have hn : k ∉ below l x := by
        intro hc
        have := hs.1 k (mem_below.1 hc).1
        rw [SMap.nameLt_irrefl] at this; cases this
      rw [hb, Finset.card_insert_of_notMem hn]
      unfold indexOf at ih ⊢
      rw [List.findIdx?_cons]
      simp only [hx] at ih ⊢
      simp [hk, ih]

theorem at_below {V : Type} {x : Name} (hx : toKey .scalars x = x) {m : SMap V} (hs : SMap.Sorted m) (hm : x ∈ SMap.keys m) :
    ∃ v, m.find x = some v ∧ m[(below m x).card]? = some (x, v) := by
  have := (indexOf_find .scalars x m).1 _ (indexOf_below hx hs hm)
  rwa [hx] at this

theorem below_mono {V : Type} {m m' : SMap V} (h : ∀ y ∈ SMap.keys m, y ∈ SMap.keys m') (x : Name) : below m x ⊆ below m' x := by
  intro y hy
  exact mem_below.2 ⟨h y (mem_below.1 hy).1, (mem_below.1 hy).2⟩

theorem card_below_eq {V : Type} {m m' : SMap V} (h : ∀ y ∈ SMap.keys m, y ∈ SMap.keys m') (x : Name) :
    (below m x).card = (below m' x).card ↔ ∀ y ∈ SMap.keys m', y ∉ SMap.keys m → nameLt y x = false := by
  constructor
  · intro hc y hy hn
    have := Finset.eq_of_subset_of_card_le (below_mono h x) (le_of_eq hc.symm)
    cases hl : nameLt y x with
    | false => rfl
    | true =>
      have h2 : y ∈ below m x := by rw [this]; exact mem_below.2 ⟨hy, hl⟩
      exact absurd (mem_below.1 h2).1 hn
  · intro hall
    congr 1
    apply Finset.Subset.antisymm (below_mono h x)
    intro y hy
    obtain ⟨h1, h2⟩ := mem_below.1 hy
    by_cases hm : y ∈ SMap.keys m
    · exact mem_below.2 ⟨hm, h2⟩
    · rw [hall y h1 hm] at h2; cases h2

theorem card_below_inj {V : Type} {m : SMap V} {x y : Name} (hx : x ∈ SMap.keys m) (hy : y ∈ SMap.keys m)
    (h : (below m x).card = (below m y).card) : x = y := by
  by_contra hne
  have key : ∀ {a b : Name}, a ∈ SMap.keys m → nameLt a b = true → (below m a).card < (below m b).card := by
    intro a b ha hab
    apply Finset.card_lt_card
    refine ⟨fun z hz => mem_below.2 ⟨(mem_below.1 hz).1, SMap.nameLt_trans (mem_below.1 hz).2 hab⟩, fun hc => ?_⟩
    have := (mem_below.1 (hc (mem_below.2 ⟨ha, hab⟩))).2
    rw [SMap.nameLt_irrefl] at this; cases this
  cases hl : nameLt x y with
  | true => have := key hx hl; omega
  | false => have := key hy (SMap.nameLt_total hne hl); omega

/-! ### The scalars that are added -/

theorem isCoef_key {x : Name} (h : isCoef x = true) : toKey .scalars x = x := toKey_of_checkName h

theorem addScls_append (a b : List Name) (m : SMap (Scl K)) : addScls (a ++ b) m = addScls b (addScls a m) := by
  induction a generalizing m with
  | nil => rfl
  | cons x xs ih =>
    rw [List.cons_append, addScls, addScls]
    split <;> exact ih _

theorem addScls_sorted {xs : List Name} {m : SMap (Scl K)} (h : SMap.Sorted m) : SMap.Sorted (addScls xs m) := by
  induction xs generalizing m with
  | nil => exact h
  | cons x xs ih =>
    rw [addScls]
    split
    · exact ih (SMap.sorted_insert _ _ _ h)
    · exact ih h

theorem addScls_find (xs : List Name) (m : SMap (Scl K)) (y : Name) :
    (addScls xs m).find y = match m.find y with
      | some s => some s
      | none => if y ∈ xs ∧ isCoef y = true then some ⟨9 / 10, 1⟩ else none := by
  induction xs generalizing m with
  | nil => rw [addScls]; cases m.find y <;> simp
  | cons x xs ih =>
    rw [addScls]
    by_cases hc : isCoef x = true
    · rw [isCoef_key hc]
      cases hh : m.has x with
      | true =>
        rw [if_neg (by simp [hh]), ih]
        cases hf : m.find y with
        | some s => rfl
        | none =>
          have : y ≠ x := by rintro rfl; rw [SMap.has_iff] at hh; obtain ⟨v, hv⟩ := hh; rw [hf] at hv; cases hv
          simp [this]
      | false =>
        rw [if_pos (by simp [hc, hh]), ih, SMap.find_insert]
        have hn := (SMap.has_false_iff x m).1 hh
        by_cases hy : y = x
        · subst hy; simp [hn, hc]
        · cases hf : m.find y <;> simp [hy]
    · rw [if_neg (by simp [hc]), ih]
      cases hf : m.find y with
      | some s => rfl
      | none =>
        by_cases hy : y = x
        · subst hy; simp [hc]
        · simp [hy]

theorem addScls_keys (xs : List Name) (m : SMap (Scl K)) (y : Name) :
    y ∈ SMap.keys (addScls xs m) ↔ y ∈ SMap.keys m ∨ (y ∈ xs ∧ isCoef y = true) := by
  rw [SMap.mem_keys_iff, SMap.mem_keys_iff, addScls_find]
  cases m.find y with
  | some s => simp
  | none => by_cases h : y ∈ xs ∧ isCoef y = true <;> simp [h]

/-! ### Linking -/

theorem link_ok {V : Type} {vars : SMap V} {m : SMap (Scl K)} : ∀ {xs : List Name} {os : List (Name × Nat)},
    link vars m xs = some os → os.map Prod.fst = xs ∧ ∀ o ∈ os, isCoef o.1 = true → indexOf .scalars m o.1 = some o.2
  | [], os, h => by rw [link] at h; cases h; simp
  | x :: xs, os, h => by
    rw [link] at h
    split at h
    · cases h
    · rename_i i hi
      rw [Option.map_eq_some_iff] at h
      obtain ⟨os', h1, rfl⟩ := h
      obtain ⟨ih1, ih2⟩ := link_ok h1
      refine ⟨by rw [List.map_cons, ih1], fun o ho hc => ?_⟩
      rcases List.mem_cons.1 ho with rfl | ho
      · rw [if_pos hc] at hi; exact hi
      · exact ih2 o ho hc

theorem link_some_iff {V : Type} {vars : SMap V} {m : SMap (Scl K)} : ∀ {xs : List Name},
    (link vars m xs).isSome = true ↔
      ∀ x ∈ xs, if isCoef x = true then x ∈ SMap.keys m else toKey .variables x ∈ SMap.keys vars
  | [] => by simp [link]
  | x :: xs => by
    have hx : (if isCoef x then indexOf .scalars m x else indexOf .variables vars x) = none ↔
        ¬ (if isCoef x = true then x ∈ SMap.keys m else toKey .variables x ∈ SMap.keys vars) := by
      by_cases hc : isCoef x = true
      · rw [if_pos hc, if_pos hc, (indexOf_find .scalars x m).2, isCoef_key hc, SMap.mem_keys_iff]
        cases m.find x <;> simp
      · rw [if_neg hc, if_neg hc, (indexOf_find .variables x vars).2, SMap.mem_keys_iff]
        cases vars.find (toKey .variables x) <;> simp
    rw [link, List.forall_mem_cons, ← link_some_iff (vars := vars) (m := m) (xs := xs)]
    split
    · rename_i h; simp [hx.1 h]
    · rename_i i h
      have : (if isCoef x = true then x ∈ SMap.keys m else toKey .variables x ∈ SMap.keys vars) := by
        by_contra hc; rw [hx.2 hc] at h; cases h
      simp [this]

/-- The state of the scalars once equation `i` has been linked. -/
def after (m : SMap (Scl K)) (es : List Eqn) (i : Nat) : SMap (Scl K) := addScls ((es.take (i + 1)).flatMap Eqn.names) m

theorem prepLecs_ok {V : Type} {vars : SMap V} : ∀ {es : List Eqn} {m m' : SMap (Scl K)} {qs : List (List (Name × Nat))},
    prepLecs vars es m = some (m', qs) → m' = addScls (es.flatMap Eqn.names) m ∧ qs.length = es.length ∧
      ∀ (i : Nat) (e : Eqn), es[i]? = some e → ∃ os, qs[i]? = some os ∧ link vars (after m es i) e.rhs = some os
  | [], m, m', qs, h => by
    rw [prepLecs] at h
    cases h
    exact ⟨rfl, rfl, fun i e hi => by simp at hi⟩
  | e :: es, m, m', qs, h => by
    rw [prepLecs] at h
    simp only at h
    split at h
    · cases h
    · split at h
      · cases h
      · rename_i os hos
        rw [Option.map_eq_some_iff] at h
        obtain ⟨⟨a, b⟩, h1, h2⟩ := h
        cases h2
        obtain ⟨ih1, ih2, ih3⟩ := prepLecs_ok h1
        have e1 : addScls e.rhs (addScls e.lhs m) = addScls (Eqn.names e) m := by rw [Eqn.names, addScls_append]
        refine ⟨by rw [ih1, List.flatMap_cons, addScls_append, e1], by simp [ih2], fun i f hf => ?_⟩
        cases i with
        | zero =>
          cases hf
          refine ⟨os, rfl, ?_⟩
          rw [after]
          simp only [List.take_succ_cons, List.take_zero, List.flatMap_cons, List.flatMap_nil, List.append_nil]
          rw [← e1]; exact hos
        | succ i =>
          obtain ⟨os', h3, h4⟩ := ih3 i f hf
          refine ⟨os', h3, ?_⟩
          rw [after, List.take_succ_cons, List.flatMap_cons, addScls_append, ← e1]
          exact h4

theorem prepLecs_some_iff {V : Type} {vars : SMap V} : ∀ {es : List Eqn} {m : SMap (Scl K)},
    (prepLecs vars es m).isSome = true ↔
      ∀ e ∈ es, ∀ x ∈ Eqn.names e, isCoef x = false → toKey .variables x ∈ SMap.keys vars
  | [], m => by simp [prepLecs]
  | e :: es, m => by
    have hl : (link vars (addScls e.lhs m) e.lhs).isSome = true ↔
        ∀ x ∈ e.lhs, isCoef x = false → toKey .variables x ∈ SMap.keys vars := by
      rw [link_some_iff]
      refine forall₂_congr fun x hx => ?_
      by_cases hc : isCoef x = true
      · simp [hc, addScls_keys, hx]
      · simp [hc]
    have hr : (link vars (addScls e.rhs (addScls e.lhs m)) e.rhs).isSome = true ↔
        ∀ x ∈ e.rhs, isCoef x = false → toKey .variables x ∈ SMap.keys vars := by
      rw [link_some_iff]
      refine forall₂_congr fun x hx => ?_
      by_cases hc : isCoef x = true
      · simp [hc, addScls_keys, hx]
      · simp [hc]
    have hn : (∀ x ∈ Eqn.names e, isCoef x = false → toKey .variables x ∈ SMap.keys vars) ↔
        (link vars (addScls e.lhs m) e.lhs).isSome = true ∧
          (link vars (addScls e.rhs (addScls e.lhs m)) e.rhs).isSome = true := by
      rw [hl, hr, Eqn.names]
      simp only [List.mem_append]
      exact ⟨fun h => ⟨fun x hx => h x (Or.inl hx), fun x hx => h x (Or.inr hx)⟩, fun h x hx => hx.elim (h.1 x) (h.2 x)⟩
    rw [List.forall_mem_cons, hn, ← prepLecs_some_iff (vars := vars) (es := es) (m := addScls e.rhs (addScls e.lhs m)), prepLecs]
    simp only
    cases link vars (addScls e.lhs m) e.lhs with
    | none => simp
    | some a =>
      cases link vars (addScls e.rhs (addScls e.lhs m)) e.rhs with
      | none => simp
      | some b => simp

/-! ### Collecting the coefficients -/

/-- The names of the coefficients. -/
def cnames (xs : List Name) : List Name := xs.filter fun x => isCoef x

theorem estimated_iff (m : SMap (Scl K)) (x : Name) : estimated m x = true ↔ 0 < ((m.find x).map Scl.relax).getD 0 := by
  rw [estimated]
  cases m.find x <;> simp

/-- The positions of an equation are those of its names. -/
def Right (m : SMap (Scl K)) (os : List (Name × Nat)) : Prop :=
  ∀ o ∈ os, isCoef o.1 = true → o.1 ∈ SMap.keys m ∧ o.2 = (below m o.1).card

theorem relaxAt_below {m : SMap (Scl K)} (hs : SMap.Sorted m) {x : Name} (hc : isCoef x = true) (hm : x ∈ SMap.keys m) :
    relaxAt m (below m x).card = ((m.find x).map Scl.relax).getD 0 := by
  obtain ⟨v, h1, h2⟩ := at_below (isCoef_key hc) hs hm
  rw [relaxAt, objAt, h2]
  simp only [isCoef_key hc]

theorem addName_filter (p : Name → Bool) (ns : List Name) (x : Name) :
    ((addName ns x).filter p).length = (ns.filter p).length + if x ∉ ns ∧ p x = true then 1 else 0 := by
  unfold addName
  by_cases h : x ∈ ns
  · simp [h]
  · by_cases hp : p x = true <;> simp [h, hp]

theorem coefsEq_right {m : SMap (Scl K)} (hs : SMap.Sorted m) : ∀ (os : List (Name × Nat)) (ns : List Name) (n : Nat), Right m os →
    (∀ x ∈ ns, x ∈ SMap.keys m) →
    coefsEq m os ⟨ns.map fun x => (below m x).card, (ns.filter (estimated m)).length⟩ n =
      (⟨((cnames (os.map Prod.fst)).foldl addName ns).map fun x => (below m x).card,
        (((cnames (os.map Prod.fst)).foldl addName ns).filter (estimated m)).length⟩,
       n + ((cnames (os.map Prod.fst)).filter (estimated m)).length)
  | [], ns, n, _, _ => rfl
  | (x, i) :: os, ns, n, hr, hn => by
    have hr' : Right m os := fun o ho => hr o (List.mem_cons_of_mem _ ho)
    rw [coefsEq]
    by_cases hc : isCoef x = true
    · obtain ⟨hm, hi⟩ := hr (x, i) List.mem_cons_self hc
      simp only at hm hi
      subst hi
      have hrel : (0 < relaxAt m (below m x).card) ↔ estimated m x = true := by
        rw [relaxAt_below hs hc hm, estimated_iff]
      have hmem : (below m x).card ∈ ns.map (fun x => (below m x).card) ↔ x ∈ ns := by
        rw [List.mem_map]
        constructor
        · rintro ⟨y, hy, h⟩
          rw [← card_below_inj (hn y hy) hm h]; exact hy
        · intro h; exact ⟨x, h, rfl⟩
      have hst : (if (below m x).card ∈ (Coefs.mk (ns.map fun x => (below m x).card) (ns.filter (estimated m)).length).nbs
            then Coefs.mk (ns.map fun x => (below m x).card) (ns.filter (estimated m)).length
            else ⟨(ns.map fun x => (below m x).card) ++ [(below m x).card],
              if 0 < relaxAt m (below m x).card then (ns.filter (estimated m)).length + 1 else (ns.filter (estimated m)).length⟩) =
          ⟨(addName ns x).map fun x => (below m x).card, ((addName ns x).filter (estimated m)).length⟩ := by
        rw [addName_filter]
        simp only [hmem, hrel]
        unfold addName
        by_cases hx : x ∈ ns
        · simp [hx]
        · by_cases hf : estimated m x = true <;> simp [hx, hf]
      rw [if_pos hc]
      simp only at hst ⊢
      rw [hst, coefsEq_right hs os (addName ns x) _ hr' (fun y hy => (addName_mem.1 hy).elim (hn y) (fun h => h ▸ hm))]
      have hcn : cnames (((x, (below m x).card) :: os).map Prod.fst) = x :: cnames (os.map Prod.fst) := by
        simp [cnames, hc]
      rw [hcn]
      simp only [List.foldl_cons, hrel, Prod.mk.injEq, true_and]
      by_cases hf : estimated m x = true
      · simp [hf]; omega
      · simp [hf]
    · rw [if_neg hc, coefsEq_right hs os ns n hr' hn]
      have hcn : cnames (((x, i) :: os).map Prod.fst) = cnames (os.map Prod.fst) := by
        simp [cnames, hc]
      rw [hcn]

theorem foldl_addName_mem (xs : List Name) : ∀ (ns : List Name) (y : Name), y ∈ xs.foldl addName ns ↔ y ∈ ns ∨ y ∈ xs := by
  induction xs with
  | nil => simp
  | cons x xs ih =>
    intro ns y
    rw [List.foldl_cons, ih, addName_mem, List.mem_cons, or_assoc]

theorem coefsEqs_right {m : SMap (Scl K)} (hs : SMap.Sorted m) : ∀ (qs : List (List (Name × Nat))) (ns : List Name),
    (∀ os ∈ qs, Right m os) → (∀ x ∈ ns, x ∈ SMap.keys m) →
    coefsEqs m qs ⟨ns.map fun x => (below m x).card, (ns.filter (estimated m)).length⟩ =
      (⟨((qs.flatMap fun os => cnames (os.map Prod.fst)).foldl addName ns).map fun x => (below m x).card,
        (((qs.flatMap fun os => cnames (os.map Prod.fst)).foldl addName ns).filter (estimated m)).length⟩,
       qs.map fun os => ((cnames (os.map Prod.fst)).filter (estimated m)).length)
  | [], ns, _, _ => rfl
  | os :: qs, ns, hr, hn => by
    rw [coefsEqs]
    rw [coefsEq_right hs os ns 0 (hr os List.mem_cons_self) hn]
    rw [coefsEqs_right hs qs _ (fun o ho => hr o (List.mem_cons_of_mem _ ho))]
    · simp [List.flatMap_cons, List.foldl_append]
    · intro y hy
      rcases (foldl_addName_mem _ _ _).1 hy with h | h
      · exact hn y h
      · rw [cnames, List.mem_filter, List.mem_map] at h
        obtain ⟨⟨o, ho, rfl⟩, hc⟩ := h
        exact (hr os List.mem_cons_self o ho hc).1

theorem foldl_addName_eq (xs : List Name) : ∀ ns : List Name,
    xs.foldl addName ns = ns ++ (xs.filter fun x => decide (x ∉ ns)).eraseDups := by
  induction xs with
  | nil => simp
  | cons x xs ih =>
    intro ns
    rw [List.foldl_cons, ih]
    unfold addName
    by_cases h : x ∈ ns
    · simp [h]
    · rw [if_neg h, List.filter_cons_of_pos (by simpa using h), List.eraseDups_cons, List.append_assoc, List.filter_filter]
      congr 2
      simp only [List.singleton_append, List.cons.injEq, true_and]
      congr 1
      apply List.filter_congr
      intro y _
      simp only [List.mem_append, List.mem_singleton, not_or]
      by_cases h1 : y = x <;> by_cases h2 : y ∈ ns <;> simp [h1, h2]

theorem foldl_addName_nil (xs : List Name) : xs.foldl addName [] = xs.eraseDups := by
  rw [foldl_addName_eq]; simp

end Iode.EstPrep
