import Verif.Lemmas.EstPrep
import Mathlib.Tactic.NormNum
import Mathlib.Tactic.IntervalCases
import Mathlib.Algebra.Order.Ring.Rat

/-! # C57: the coefficients of a block of equations -/
namespace Iode.EstPrep.C57

open Iode.EstPrep Iode.Spec.EstPrep Iode.Lec

variable {K : Type} [Field K] [LinearOrder K] {V : Type}

theorem prep_ok {vars : SMap V} {es : List Eqn} {m : SMap (Scl K)} {q : Prep K} (h : prep vars es m = some q) :
    prepLecs vars es m = some (q.scls, q.eqs) ∧ coefsEqs q.scls q.eqs ⟨[], 0⟩ = (q.coefs, q.nbce) := by
  rw [prep] at h
  split at h
  · cases h
  · rename_i r hr
    simp only at h
    split at h
    · cases h
    · cases h
      exact ⟨hr, rfl⟩

theorem names_take {es : List Eqn} {i : Nat} {y : Name} :
    y ∈ (es.take (i + 1)).flatMap Eqn.names ↔ ∃ j ≤ i, ∃ e, es[j]? = some e ∧ y ∈ e.names := by
  rw [List.mem_flatMap]
  constructor
  · rintro ⟨e, he, hy⟩
    obtain ⟨j, hj⟩ := List.mem_iff_getElem?.1 he
    rw [List.getElem?_take] at hj
    split at hj
    · exact ⟨j, by omega, e, hj, hy⟩
    · cases hj
  · rintro ⟨j, hj, e, he, hy⟩
    refine ⟨e, List.mem_iff_getElem?.2 ⟨j, ?_⟩, hy⟩
    rw [List.getElem?_take, if_pos (by omega)]; exact he

theorem created_iff {es : List Eqn} {m : SMap (Scl K)} {i : Nat} {y : Name} :
    CreatedAfter m es i y ↔ y ∈ SMap.keys (addScls (es.flatMap Eqn.names) m) ∧ y ∉ SMap.keys (after m es i) := by
  rw [after, addScls_keys, addScls_keys, names_take, List.mem_flatMap]
  have hk : y ∈ SMap.keys m ↔ m.find y ≠ none := by
    rw [SMap.mem_keys_iff]; cases m.find y <;> simp
  rw [hk]
  constructor
  · rintro ⟨h1, h2, h3, h4⟩
    refine ⟨Or.inr ⟨h4, h1⟩, ?_⟩
    rintro (h | ⟨⟨j, hj, e, he, hy⟩, -⟩)
    · exact h h2
    · exact h3 j hj e he hy
  · rintro ⟨h1, h2⟩
    rcases h1 with h1 | ⟨h1, hc⟩
    · exact absurd (Or.inl h1) h2
    · refine ⟨hc, by_contra fun h => h2 (Or.inl h), fun j hj e he hy => h2 (Or.inr ⟨⟨j, hj, e, he, hy⟩, hc⟩), h1⟩

theorem after_sub {es : List Eqn} {m : SMap (Scl K)} {i : Nat} :
    ∀ y ∈ SMap.keys (after m es i), y ∈ SMap.keys (addScls (es.flatMap Eqn.names) m) := by
  intro y hy
  rw [after, addScls_keys, names_take] at hy
  rw [addScls_keys]
  rcases hy with h | ⟨⟨j, _, e, he, hy⟩, hc⟩
  · exact Or.inl h
  · exact Or.inr ⟨List.mem_flatMap.2 ⟨e, List.mem_of_getElem? he, hy⟩, hc⟩

/-- What is known of one coefficient of one equation. -/
theorem position {vars : SMap V} {es : List Eqn} {m : SMap (Scl K)} {m' : SMap (Scl K)} {qs : List (List (Name × Nat))} (h : prepLecs vars es m = some (m', qs))
    (hs : SMap.Sorted m) {i : Nat} {e : Eqn} (he : es[i]? = some e) :
    ∃ os, qs[i]? = some os ∧ os.map Prod.fst = e.rhs ∧ ∀ x p, (x, p) ∈ os → isCoef x = true →
      x ∈ SMap.keys m' ∧ p ≤ (below m' x).card ∧
      (p = (below m' x).card ↔ ∀ y, CreatedAfter m es i y → nameLt y x = false) := by
  obtain ⟨h1, -, h3⟩ := prepLecs_ok h
  obtain ⟨os, ho, hl⟩ := h3 i e he
  obtain ⟨hm, hp⟩ := link_ok hl
  refine ⟨os, ho, hm, fun x p hx hc => ?_⟩
  have hxr : x ∈ e.rhs := by rw [← hm]; exact List.mem_map.2 ⟨_, hx, rfl⟩
  have hxk : x ∈ SMap.keys (after m es i) := by
    rw [after, addScls_keys, names_take]
    exact Or.inr ⟨⟨i, Nat.le_refl _, e, he, List.mem_append_right _ hxr⟩, hc⟩
  have hpp : p = (below (after m es i) x).card := by
    have : indexOf .scalars (after m es i) x = some p := hp _ hx hc
    rw [after] at hxk this ⊢
    rw [indexOf_below (isCoef_key hc) (addScls_sorted hs) hxk] at this
    exact (Option.some.inj this).symm
  rw [h1, hpp]
  refine ⟨after_sub x hxk, Finset.card_le_card (below_mono after_sub x), ?_⟩
  rw [card_below_eq after_sub]
  simp only [created_iff]
  exact ⟨fun hh y hy => hh y hy.1 hy.2, fun hh y h1 h2 => hh y ⟨h1, h2⟩⟩

theorem scls_sorted {vars : SMap V} {es : List Eqn} {m : SMap (Scl K)} {m' : SMap (Scl K)} {qs : List (List (Name × Nat))} (h : prepLecs vars es m = some (m', qs))
    (hs : SMap.Sorted m) : SMap.Sorted m' := by
  rw [(prepLecs_ok h).1]; exact addScls_sorted hs

/-- **C57** The scalars afterwards: those there were are kept as they are; the coefficients of the equations that did not exist are
    created with value 0.9 and relaxation 1; nothing else. -/
theorem C57_scalars {vars : SMap V} {es : List Eqn} {m : SMap (Scl K)} {q : Prep K} (h : prep vars es m = some q) (y : Name) :
    (∀ s, m.find y = some s → q.scls.find y = some s) ∧
    (m.find y = none → isCoef y = true → (∃ e ∈ es, y ∈ e.names) → q.scls.find y = some ⟨9 / 10, 1⟩) ∧
    (m.find y = none → (isCoef y = false ∨ ∀ e ∈ es, y ∉ e.names) → q.scls.find y = none) := by
  rw [(prepLecs_ok (prep_ok h).1).1, addScls_find]
  refine ⟨fun s hs => by rw [hs], fun hn hc he => ?_, fun hn hc => ?_⟩
  · simp only [hn]
    rw [if_pos ⟨List.mem_flatMap.2 he, hc⟩]
  · simp only [hn]
    rw [if_neg]
    rintro ⟨h1, h2⟩
    obtain ⟨e, he, hy⟩ := List.mem_flatMap.1 h1
    rcases hc with hc | hc
    · rw [h2] at hc; cases hc
    · exact hc e he hy

/-- **C57** Exactly when a coefficient of an equation is still itself once the block is prepared: when no scalar created for a later
    equation comes before it in the order of the names. -/
theorem C57_position {vars : SMap V} {es : List Eqn} {m : SMap (Scl K)} {q : Prep K} (h : prep vars es m = some q)
    (hs : SMap.Sorted m) {i : Nat} {e : Eqn} (he : es[i]? = some e) {x : Name} (hx : x ∈ e.rhs) (hc : isCoef x = true) :
    ∃ os p z s, q.eqs[i]? = some os ∧ (x, p) ∈ os ∧ q.scls[p]? = some (z, s) ∧
      (z = x ↔ ∀ y, CreatedAfter m es i y → nameLt y x = false) := by
  obtain ⟨os, ho, hm, hp⟩ := position (prep_ok h).1 hs he
  rw [← hm, List.mem_map] at hx
  obtain ⟨⟨x', p⟩, hxp, rfl⟩ := hx
  obtain ⟨hk, hle, hiff⟩ := hp x' p hxp hc
  obtain ⟨v, hv, hat⟩ := at_below (isCoef_key hc) (scls_sorted (prep_ok h).1 hs) hk
  have hlt : (below q.scls x').card < q.scls.length := (List.getElem?_eq_some_iff.1 hat).1
  have hz : q.scls[p]? = some q.scls[p] := List.getElem?_eq_getElem (by omega)
  refine ⟨os, p, (q.scls[p]).1, (q.scls[p]).2, ho, hxp, hz, ?_⟩
  rw [← hiff]
  simp only
  constructor
  · intro hzx
    have hzk : ∀ (l : SMap (Scl K)) (n : Nat) (a : Name × Scl K), SMap.Sorted l → l[n]? = some a →
        toKey .scalars a.1 = a.1 → n = (below l a.1).card := by
      intro l
      induction l with
      | nil => intro n a _ h; simp at h
      | cons b l ih =>
        intro n a hsl hn hka
        have hmem : a.1 ∈ SMap.keys (b :: l) := List.mem_map.2 ⟨a, List.mem_of_getElem? hn, rfl⟩
        have hidx := indexOf_below hka hsl hmem
        cases n with
        | zero =>
          cases hn
          have : indexOf .scalars (b :: l) b.1 = some 0 := by simp [indexOf, hka, List.findIdx?_cons]
          rw [this] at hidx
          exact Option.some.inj hidx
        | succ n =>
          have hn' : l[n]? = some a := hn
          have hal : a.1 ∈ SMap.keys l := List.mem_map.2 ⟨a, List.mem_of_getElem? hn', rfl⟩
          have hne : b.1 ≠ a.1 := by
            intro hh
            have := hsl.1 a.1 hal
            rw [hh, SMap.nameLt_irrefl] at this; cases this
          have := ih n a hsl.2 hn' hka
          have hl := indexOf_below hka hsl.2 hal
          rw [← this] at hl
          have h2 : indexOf .scalars (b :: l) a.1 = some (n + 1) := by
            unfold indexOf at hl ⊢
            rw [List.findIdx?_cons]
            simp only [hka] at hl ⊢
            simp [hne, hl]
          rw [h2] at hidx
          exact Option.some.inj hidx
    have := hzk q.scls p q.scls[p] (scls_sorted (prep_ok h).1 hs) hz (by rw [hzx]; exact isCoef_key hc)
    rw [hzx] at this; exact this
  · intro hpe
    have : q.scls[p]? = some (x', v) := by rw [hpe]; exact hat
    rw [hz] at this
    exact congrArg Prod.fst (Option.some.inj this)

theorem right_of_stable {vars : SMap V} {es : List Eqn} {m : SMap (Scl K)} {m' : SMap (Scl K)} {qs : List (List (Name × Nat))} (h : prepLecs vars es m = some (m', qs))
    (hs : SMap.Sorted m) (hst : Stable m es) {i : Nat} {e : Eqn} (he : es[i]? = some e) :
    ∃ os, qs[i]? = some os ∧ os.map Prod.fst = e.rhs ∧ Right m' os := by
  obtain ⟨os, ho, hm, hp⟩ := position h hs he
  refine ⟨os, ho, hm, fun o hoo hc => ?_⟩
  obtain ⟨h1, -, h2⟩ := hp o.1 o.2 hoo hc
  exact ⟨h1, h2.2 (hst i e he o.1 (by rw [← hm]; exact List.mem_map.2 ⟨o, hoo, rfl⟩) hc)⟩

theorem eqs_names {vars : SMap V} {es : List Eqn} {m : SMap (Scl K)} {m' : SMap (Scl K)} {qs : List (List (Name × Nat))} (h : prepLecs vars es m = some (m', qs))
    (hs : SMap.Sorted m) : qs.map (fun os => os.map Prod.fst) = es.map Eqn.rhs := by
  apply List.ext_getElem?
  intro i
  rw [List.getElem?_map, List.getElem?_map]
  have hlen := (prepLecs_ok h).2.1
  cases he : es[i]? with
  | none =>
    rw [List.getElem?_eq_none_iff] at he
    rw [List.getElem?_eq_none_iff.2 (by omega)]; rfl
  | some e =>
    obtain ⟨os, ho, hm, -⟩ := position h hs he
    rw [ho]; simp [hm]

theorem stable_coefs {vars : SMap V} {es : List Eqn} {m : SMap (Scl K)} {m' : SMap (Scl K)} {qs : List (List (Name × Nat))} (h : prepLecs vars es m = some (m', qs))
    (hs : SMap.Sorted m) (hst : Stable m es) :
    coefsEqs m' qs ⟨[], 0⟩ = (⟨(coefficients es).map fun x => (below m' x).card, ((coefficients es).filter (estimated m')).length⟩,
      es.map fun e => ((e.rhs.filter fun x => isCoef x).filter (estimated m')).length) := by
  have hr : ∀ os ∈ qs, Right m' os := by
    intro os hos
    obtain ⟨i, hi⟩ := List.mem_iff_getElem?.1 hos
    have hlen := (prepLecs_ok h).2.1
    have hil : i < qs.length := (List.getElem?_eq_some_iff.1 hi).1
    obtain ⟨os', h1, -, h2⟩ := right_of_stable h hs hst (List.getElem?_eq_getElem (l := es) (i := i) (by omega))
    rw [hi] at h1; cases h1; exact h2
  have hc := coefsEqs_right (scls_sorted h hs) qs [] hr (by simp)
  have hn := eqs_names h hs
  have hflat : (qs.flatMap fun os => cnames (os.map Prod.fst)) = (es.flatMap Eqn.rhs).filter fun x => isCoef x := by
    rw [← List.flatMap_map (fun os : List (Name × Nat) => os.map Prod.fst) cnames, hn, List.flatMap_map, List.filter_flatMap]
    rfl
  simp only [List.map_nil, List.filter_nil, List.length_nil] at hc
  rw [hflat, foldl_addName_nil] at hc
  refine hc.trans ?_
  rw [Prod.mk.injEq]
  refine ⟨rfl, ?_⟩
  have : qs.map (fun os => ((cnames (os.map Prod.fst)).filter (estimated m')).length) =
      (qs.map (fun os => os.map Prod.fst)).map fun xs => ((cnames xs).filter (estimated m')).length := by
    rw [List.map_map]; rfl
  rw [this, hn, List.map_map]
  rfl

theorem stable_prep {vars : SMap V} {es : List Eqn} {m : SMap (Scl K)} {q : Prep K} (h : prep vars es m = some q)
    (hs : SMap.Sorted m) (hst : Stable m es) :
    q.coefs = ⟨(coefficients es).map fun x => (below q.scls x).card, ((coefficients es).filter (estimated q.scls)).length⟩ ∧
    q.nbce = es.map fun e => ((e.rhs.filter fun x => isCoef x).filter (estimated q.scls)).length := by
  have hc := stable_coefs (prep_ok h).1 hs hst
  rw [(prep_ok h).2] at hc
  exact ⟨congrArg Prod.fst hc, congrArg Prod.snd hc⟩

theorem coefficients_keys {vars : SMap V} {es : List Eqn} {m : SMap (Scl K)} {q : Prep K} (h : prep vars es m = some q)
    {x : Name} (hx : x ∈ coefficients es) : isCoef x = true ∧ x ∈ SMap.keys q.scls := by
  rw [coefficients, List.mem_eraseDups, List.mem_filter, List.mem_flatMap] at hx
  obtain ⟨⟨e, he, hx⟩, hc⟩ := hx
  refine ⟨hc, ?_⟩
  rw [(prepLecs_ok (prep_ok h).1).1, addScls_keys]
  exact Or.inr ⟨List.mem_flatMap.2 ⟨e, he, List.mem_append_right _ hx⟩, hc⟩

/-- **C57** The coefficients of the block are those of the right hand sides, each one once, in the order in which they occur. -/
theorem C57_coefficients_partial {vars : SMap V} {es : List Eqn} {m : SMap (Scl K)} {q : Prep K} (h : prep vars es m = some q)
    (hs : SMap.Sorted m) (hst : Stable m es) :
    q.coefs.nbs.length = (coefficients es).length ∧ ∀ k, coefName q k = (coefficients es)[k]? := by
  have hc := (stable_prep h hs hst).1
  refine ⟨by rw [hc]; simp, fun k => ?_⟩
  rw [coefName, hc]
  simp only [List.getElem?_map]
  cases hk : (coefficients es)[k]? with
  | none => rfl
  | some x =>
    obtain ⟨hx1, hx2⟩ := coefficients_keys h (List.mem_of_getElem? hk)
    obtain ⟨v, -, hat⟩ := at_below (isCoef_key hx1) (scls_sorted (prep_ok h).1 hs) hx2
    simp [hat]

/-- **C57** Coefficient `k` is found in equation `i` exactly if its name is in the right hand side. -/
theorem C57_in_equation_partial {vars : SMap V} {es : List Eqn} {m : SMap (Scl K)} {q : Prep K} (h : prep vars es m = some q)
    (hs : SMap.Sorted m) (hst : Stable m es) {k : Nat} {x : Name} (hk : (coefficients es)[k]? = some x) {i : Nat} {e : Eqn}
    (he : es[i]? = some e) : sclInEq q k i = true ↔ x ∈ e.rhs := by
  obtain ⟨hx1, hx2⟩ := coefficients_keys h (List.mem_of_getElem? hk)
  obtain ⟨os, ho, hm, hr⟩ := right_of_stable (prep_ok h).1 hs hst he
  rw [sclInEq, (stable_prep h hs hst).1]
  simp only [List.getElem?_map, hk, ho, Option.map_some]
  rw [List.any_eq_true, ← hm, List.mem_map]
  constructor
  · rintro ⟨o, hoo, hh⟩
    rw [Bool.and_eq_true, decide_eq_true_eq] at hh
    obtain ⟨h1, h2⟩ := hr o hoo hh.1
    exact ⟨o, hoo, card_below_inj h1 hx2 (h2.symm.trans hh.2.symm)⟩
  · rintro ⟨o, hoo, rfl⟩
    refine ⟨o, hoo, ?_⟩
    rw [Bool.and_eq_true, decide_eq_true_eq]
    exact ⟨hx1, (hr o hoo hx1).2.symm⟩

/-- **C57** The numbers of coefficients to estimate: of the block, and of each equation. -/
theorem C57_counts_partial {vars : SMap V} {es : List Eqn} {m : SMap (Scl K)} {q : Prep K} (h : prep vars es m = some q)
    (hs : SMap.Sorted m) (hst : Stable m es) :
    q.coefs.nce = ((coefficients es).filter (estimated q.scls)).length ∧
    q.nbce = es.map fun e => ((e.rhs.filter fun x => isCoef x).filter (estimated q.scls)).length :=
  ⟨by rw [(stable_prep h hs hst).1], (stable_prep h hs hst).2⟩

/-- **C57** In every equation a coefficient has the value of the scalar of its name. -/
theorem C57_value_partial {vars : SMap V} {es : List Eqn} {m : SMap (Scl K)} {q : Prep K} (h : prep vars es m = some q)
    (hs : SMap.Sorted m) (hst : Stable m es) {i : Nat} {e : Eqn} (he : es[i]? = some e) {x : Name} (hx : x ∈ e.rhs)
    (hc : isCoef x = true) : coefVal q i x = (q.scls.find x).map Scl.value := by
  obtain ⟨os, ho, hm, hr⟩ := right_of_stable (prep_ok h).1 hs hst he
  rw [coefVal, ho]
  simp only
  rw [← hm, List.mem_map] at hx
  obtain ⟨o, hoo, rfl⟩ := hx
  cases hf : os.find? (fun o' => decide (o'.1 = o.1)) with
  | none => have := List.find?_eq_none.1 hf o hoo; simp at this
  | some o' =>
    have h1 : o'.1 = o.1 := by simpa using List.find?_some hf
    have h2 := hr o' (List.mem_of_find?_eq_some hf) (by rw [h1]; exact hc)
    obtain ⟨v, hv, hat⟩ := at_below (isCoef_key hc) (scls_sorted (prep_ok h).1 hs) (h1 ▸ h2.1)
    simp only
    rw [h2.2, h1, objAt, hat]
    simp only [isCoef_key hc]

/-- **C57** The block is accepted exactly if all its variables are found and one coefficient is to be estimated. -/
theorem C57_accepted_partial (vars : SMap V) {es : List Eqn} {m : SMap (Scl K)} (hs : SMap.Sorted m) (hst : Stable m es) [IsStrictOrderedRing K] :
    (prep vars es m).isSome = true ↔
      (∀ e ∈ es, ∀ x ∈ e.names, isCoef x = false → (vars.find (toKey .variables x)).isSome = true) ∧
      ∃ e ∈ es, ∃ x ∈ e.rhs, isCoef x = true ∧ ∀ s, m.find x = some s → 0 < s.relax := by
  have hv : (prepLecs vars es m).isSome = true ↔
      ∀ e ∈ es, ∀ x ∈ e.names, isCoef x = false → (vars.find (toKey .variables x)).isSome = true := by
    rw [prepLecs_some_iff]
    simp only [SMap.mem_keys_iff, Option.isSome_iff_exists]
  rw [← hv]
  cases hp : prepLecs vars es m with
  | none => simp [prep, hp]
  | some r =>
    obtain ⟨m', qs⟩ := r
    have hc := stable_coefs hp hs hst
    rw [prep, hp]
    simp only [hc, Option.isSome_some, true_and]
    have hmem : (((coefficients es).filter (estimated m')).length = 0) ↔
        ¬ ∃ e ∈ es, ∃ x ∈ e.rhs, isCoef x = true ∧ ∀ s, m.find x = some s → 0 < s.relax := by
      rw [List.length_eq_zero_iff, List.filter_eq_nil_iff]
      have hest : ∀ e ∈ es, ∀ x ∈ e.rhs, isCoef x = true → (estimated m' x = true ↔ ∀ s, m.find x = some s → 0 < s.relax) := by
        intro e he x hx hcx
        rw [(prepLecs_ok hp).1, estimated, addScls_find]
        cases m.find x with
        | some s => simp
        | none =>
          have : x ∈ es.flatMap Eqn.names := List.mem_flatMap.2 ⟨e, he, List.mem_append_right _ hx⟩
          simp [this, hcx]
      constructor
      · rintro hall ⟨e, he, x, hx, hcx, hr⟩
        refine hall x ?_ ((hest e he x hx hcx).2 hr)
        rw [coefficients, List.mem_eraseDups, List.mem_filter, List.mem_flatMap]
        exact ⟨⟨e, he, hx⟩, hcx⟩
      · intro hno x hx hh
        rw [coefficients, List.mem_eraseDups, List.mem_filter, List.mem_flatMap] at hx
        obtain ⟨⟨e, he, hx⟩, hcx⟩ := hx
        exact hno ⟨e, he, x, hx, hcx, (hest e he x hx hcx).1 hh⟩
    by_cases h0 : ((coefficients es).filter (estimated m')).length = 0
    · rw [if_pos h0]
      have := hmem.1 h0
      simp only [Option.isSome_none, Bool.false_eq_true, false_iff]
      exact this
    · rw [if_neg h0]
      simp only [Option.isSome_some, true_iff]
      exact not_not.1 fun h => h0 (hmem.2 h)

/-- **C57** When every coefficient of the block already exists, or there is a single equation, no position moves; hence a second
    estimation of the same block is always right. -/
theorem C57_known {es : List Eqn} {m : SMap (Scl K)}
    (hk : ∀ e ∈ es, ∀ x ∈ e.names, isCoef x = true → (m.find x).isSome = true) : Stable m es := by
  rintro i e he x hx hc y ⟨h1, h2, -, f, hf, hy⟩
  have := hk f hf y hy h1
  rw [h2] at this; cases this

/-- **C57** One equation. -/
theorem C57_single (e : Eqn) (m : SMap (Scl K)) : Stable m [e] := by
  rintro i f hf x hx hc y ⟨-, -, h3, g, hg, hy⟩
  cases List.mem_singleton.1 hg
  exact absurd hy (h3 0 (Nat.zero_le _) _ rfl)

/-- **C57** After a block has been prepared once. -/
theorem C57_again {vars : SMap V} {es : List Eqn} {m : SMap (Scl K)} {q : Prep K} (h : prep vars es m = some q) :
    Stable q.scls es := by
  apply C57_known
  intro e he x hx hc
  cases hf : m.find x with
  | some s => rw [(C57_scalars h x).1 s hf]; rfl
  | none => rw [(C57_scalars h x).2.1 hf hc ⟨e, he, hx⟩]; rfl

/-! ### Examples -/

/-- `Y := a + c * X`, `Z := a + d * X`. -/
def block : List Eqn := [⟨["Y".toList], ["a".toList, "c".toList, "X".toList]⟩, ⟨["Z".toList], ["a".toList, "d".toList, "X".toList]⟩]
def vars3 : SMap Unit := [("X".toList, ()), ("Y".toList, ()), ("Z".toList, ())]
/-- `c` is not to be estimated. -/
def scls1 : SMap (Scl Rat) := [("c".toList, ⟨2, 0⟩)]

example : SMap.Sorted scls1 := by simp [scls1, SMap.Sorted, SMap.keys]
example : Stable scls1 block := by
  rintro i e he x hx hc y ⟨h1, h2, h3, f, hf, hy⟩
  match i with
  | 0 =>
    cases he
    have h30 := h3 0 (Nat.le_refl _) _ rfl
    have : y ∈ [("Z".toList : Name), "d".toList] := by
      simp only [block, Eqn.names, List.mem_cons, List.mem_append, List.not_mem_nil, or_false] at hf hy h30 ⊢
      rcases hf with rfl | rfl <;> simp_all
    simp only [List.mem_cons, List.not_mem_nil, or_false] at this hx
    rcases this with rfl | rfl
    · exact absurd h1 (by decide)
    · rcases hx with rfl | rfl | rfl <;> first | decide | exact absurd hc (by decide)
  | 1 =>
    exfalso
    have h30 := h3 0 (by omega) _ rfl
    have h31 := h3 1 (by omega) _ rfl
    simp only [block, List.mem_cons, List.not_mem_nil, or_false] at hf
    rcases hf with rfl | rfl
    · exact h30 hy
    · exact h31 hy
  | i + 2 => cases he
example : coefficients block = ["a".toList, "c".toList, "d".toList] := by decide +kernel
example : ((prep vars3 block scls1).map fun q => (q.coefs, q.nbce, q.scls.map (·.1))) =
    some (⟨[0, 1, 2], 2⟩, [1, 2], ["a".toList, "c".toList, "d".toList]) := by decide +kernel
example : ((prep vars3 block scls1).map fun q => (coefVal q 0 "c".toList, coefVal q 1 "d".toList)) =
    some (some 2, some (9 / 10)) := by decide +kernel
example : ((prep vars3 block scls1).map fun q => (sclInEq q 1 0, sclInEq q 1 1)) = some (true, false) := by decide +kernel
/-- Only `c`, which is not to be estimated. -/
example : (prep vars3 [⟨["Y".toList], ["c".toList, "X".toList]⟩] scls1).isNone = true := by decide +kernel
/-- An unknown variable. -/
example : (prep vars3 [⟨["Y".toList], ["b".toList, "W".toList]⟩] scls1).isNone = true := by decide +kernel

/-! ### Where the coefficients get mixed up -/

/-- `Y := b * X`, `Z := a * X`. -/
def crossed : List Eqn := [⟨["Y".toList], ["b".toList, "X".toList]⟩, ⟨["Z".toList], ["a".toList, "X".toList]⟩]

/-- **C57** Without any scalar beforehand: the equations have two coefficients, the block has one, `a`, used in both equations; `b` is
    created and never estimated. -/
theorem C57_lost_counterexample : ∃ q, prep vars3 crossed ([] : SMap (Scl Rat)) = some q ∧
    coefficients crossed = ["b".toList, "a".toList] ∧ q.scls.map (·.1) = ["a".toList, "b".toList] ∧
    q.coefs.nbs.length = 1 ∧ q.coefs.nce = 1 ∧ coefName q 0 = some "a".toList ∧ sclInEq q 0 0 = true ∧ sclInEq q 0 1 = true := by
  have : ((prep vars3 crossed ([] : SMap (Scl Rat))).map fun q => (q.scls.map (·.1), q.coefs, coefName q 0, sclInEq q 0 0, sclInEq q 0 1)) =
      some (["a".toList, "b".toList], ⟨[0], 1⟩, some "a".toList, true, true) := by decide +kernel
  rw [Option.map_eq_some_iff] at this
  obtain ⟨q, hq, h⟩ := this
  simp only [Prod.mk.injEq] at h
  exact ⟨q, hq, by decide +kernel, h.1, by rw [h.2.1]; rfl, by rw [h.2.1], h.2.2.1, h.2.2.2.1, h.2.2.2.2⟩

/-- **C57** A scalar that exists is replaced by another one: `b` is 5, and the first equation reads 0.9, the value of `a`. -/
theorem C57_value_counterexample : ∃ (m : SMap (Scl Rat)) (q : Prep Rat), SMap.Sorted m ∧ m.find "b".toList = some ⟨5, 1⟩ ∧
    prep vars3 crossed m = some q ∧ q.scls.find "b".toList = some ⟨5, 1⟩ ∧ coefVal q 0 "b".toList = some (9 / 10) := by
  have : ((prep vars3 crossed ([("b".toList, ⟨5, 1⟩)] : SMap (Scl Rat))).map fun q => (q.scls.find "b".toList, coefVal q 0 "b".toList)) =
      some (some ⟨5, 1⟩, some (9 / 10)) := by decide +kernel
  rw [Option.map_eq_some_iff] at this
  obtain ⟨q, hq, h⟩ := this
  simp only [Prod.mk.injEq] at h
  exact ⟨_, q, by simp [SMap.Sorted, SMap.keys], rfl, hq, h.1, h.2⟩

end Iode.EstPrep.C57
