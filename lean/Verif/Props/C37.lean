import Verif.Lemmas.Goal
import Verif.Props.C36
import Mathlib.Logic.Relation

/-!
# C37: goal seeking swaps exactly the requested variables
-/
namespace Iode.Sim

theorem set_nodup {l : List Nat} {i a b : Nat} (hd : l.Nodup) (hi : l[i]? = some a) (hb : b ∉ l) :
    (l.set i b).Nodup ∧ ∀ v, v ∈ l.set i b ↔ (v ∈ l ∧ v ≠ a) ∨ v = b := by
  obtain ⟨hlt, ha⟩ := List.getElem?_eq_some_iff.1 hi
  constructor
  · rw [List.Nodup, List.pairwise_iff_getElem]
    intro x y hx hy hxy
    simp only [List.length_set] at hx hy
    rw [List.getElem_set, List.getElem_set]
    split
    · next h1 =>
      rw [if_neg (by omega)]
      exact fun hh => hb (by rw [hh]; exact List.getElem_mem hy)
    · split
      · exact fun hh => hb (by rw [← hh]; exact List.getElem_mem hx)
      · exact fun hh => by have := (List.Nodup.getElem_inj_iff hd (hi := hx) (hj := hy)).1 hh; omega
  · intro v
    rw [List.mem_iff_getElem]
    constructor
    · rintro ⟨j, hj, e⟩
      rw [List.getElem_set] at e
      simp only [List.length_set] at hj
      split at e
      · exact Or.inr e.symm
      · next hne =>
        refine Or.inl ⟨by rw [← e]; exact List.getElem_mem hj, ?_⟩
        rintro rfl
        exact hne ((List.Nodup.getElem_inj_iff hd (hi := hlt) (hj := hj)).1 (ha.trans e.symm))
    · rintro (⟨h1, h2⟩ | rfl)
      · obtain ⟨j, hj, e⟩ := List.mem_iff_getElem.1 h1
        refine ⟨j, by simpa using hj, ?_⟩
        rw [List.getElem_set, if_neg, e]
        rintro rfl
        exact h2 (e.symm.trans ha)
      · exact ⟨i, by simpa using hlt, by simp⟩

variable {owns : List Nat} {objss : List (List (Option Nat))} {exo : Nat}

/-- The table of equations by variable has the right entry for every unknown. -/
def Endo.Indexed (e : Endo) : Prop := ∀ i p : Nat, e.posxk[i]? = some p → e.rev.getD p none = some i

theorem Endo.Indexed.solved {e : Endo} (h : e.Indexed) (hd : e.posxk.Nodup) : e.Solved := by
  intro j p hj
  unfold Endo.eqOf
  split
  · next hp =>
    obtain ⟨a, b⟩ := List.getElem?_eq_some_iff.1 hp
    obtain ⟨c, d⟩ := List.getElem?_eq_some_iff.1 hj
    rw [(List.Nodup.getElem_inj_iff hd).1 (b.trans d.symm)]
  · exact h j p hj

theorem put_indexed {e : Endo} (h : e.Indexed) {i p : Nat} (hp : p ∉ e.posxk) (hlt : p < e.rev.length) :
    (e.put i p).Indexed := by
  intro j q hj
  simp only [Endo.put] at hj ⊢
  rw [List.getElem?_set] at hj
  split at hj
  · next hij =>
    split at hj
    · simp only [Option.some.injEq] at hj
      subst hj hij
      rw [List.getD_eq_getElem?_getD, List.getElem?_set_self hlt]
      rfl
    · cases hj
  · have hne : p ≠ q := by
      rintro rfl
      exact hp (List.mem_of_getElem? hj)
    rw [List.getD_eq_getElem?_getD, List.getElem?_set_ne hne, ← List.getD_eq_getElem?_getD]
    exact h j q hj

/-- Shifting along a chain without repetition. -/
theorem shiftC_spec (hd : owns.Nodup) (hexo : exo ∉ owns) {e : Endo} (he : e.posxk = owns) (hin : e.Indexed)
    (hlt : ∀ p ∈ owns, p < e.rev.length) (hx : exo < e.rev.length) : ∀ i tail, Chain owns objss exo i tail →
    (i :: tail).Nodup → ∀ y, owns[i]? = some y →
    let e' := shiftC owns exo i tail e
    e'.posxk.Nodup ∧ (∀ v, v ∈ e'.posxk ↔ (v ∈ owns ∧ v ≠ y) ∨ v = exo) ∧ e'.Indexed ∧ e'.rev.length = e.rev.length ∧
      (∀ j, j ∉ i :: tail → e'.posxk[j]? = owns[j]?) ∧
      (∀ j p, e'.posxk[j]? = some p → owns[j]? = some p ∨ some p ∈ objss.getD j []) := by
  intro i tail hc
  induction hc with
  | @last i hm =>
    intro _ y hy
    obtain ⟨s1, s2⟩ := set_nodup hd hy hexo
    refine ⟨?_, ?_, put_indexed hin (by rw [he]; exact hexo) hx, by simp [shiftC, Endo.put], ?_, ?_⟩
    · simp only [shiftC, Endo.put, he]; exact s1
    · simp only [shiftC, Endo.put, he]; exact s2
    · intro j hj
      simp only [shiftC, Endo.put, he]
      rw [List.getElem?_set_ne]
      rintro rfl
      exact hj (List.mem_cons_self ..)
    · intro j p hp
      simp only [shiftC, Endo.put, he] at hp
      rw [List.getElem?_set] at hp
      split at hp
      · next hij =>
        split at hp
        · simp only [Option.some.injEq] at hp; subst hp hij; exact Or.inr hm
        · cases hp
      · exact Or.inl hp
  | @step i j p r hne hj hm hc ih =>
    intro hnd y hy
    have hnd' := List.nodup_cons.1 hnd
    obtain ⟨i1, i2, i3, i4, i5, i6⟩ := ih hnd'.2 p hj
    have hgp : owns.getD j 0 = p := by rw [List.getD_eq_getElem?_getD, hj]; rfl
    have hpn : p ∉ (shiftC owns exo j r e).posxk := by
      rw [i2]
      rintro (h | h)
      · exact h.2 rfl
      · exact hexo (h ▸ List.mem_of_getElem? hj)
    have hyi : (shiftC owns exo j r e).posxk[i]? = some y := by rw [i5 i hnd'.1, hy]
    obtain ⟨s1, s2⟩ := set_nodup i1 hyi hpn
    have hpo : p ∈ owns := List.mem_of_getElem? hj
    have hyp : p ≠ y := by
      rintro rfl
      exact hne (own_inj hd hy hj)
    refine ⟨?_, ?_, ?_, ?_, ?_, ?_⟩
    · simp only [shiftC, Endo.put, hgp]; exact s1
    · intro v
      simp only [shiftC, Endo.put, hgp]
      rw [s2, i2]
      constructor
      · rintro (⟨⟨h1, h2⟩ | h1, h3⟩ | h1)
        · exact Or.inl ⟨h1, h3⟩
        · exact Or.inr h1
        · subst h1; exact Or.inl ⟨hpo, hyp⟩
      · rintro (⟨h1, h2⟩ | h1)
        · by_cases hvp : v = p
          · exact Or.inr hvp
          · exact Or.inl ⟨Or.inl ⟨h1, hvp⟩, h2⟩
        · refine Or.inl ⟨Or.inr h1, ?_⟩
          rintro rfl
          exact hexo (h1 ▸ List.mem_of_getElem? hy)
    · rw [shiftC, hgp]
      exact put_indexed i3 hpn (by rw [i4]; exact hlt p hpo)
    · rw [shiftC]
      simp only [Endo.put, List.length_set]
      exact i4
    · intro k hk
      simp only [shiftC, Endo.put]
      rw [List.getElem?_set_ne, i5 k (fun hh => hk (List.mem_cons_of_mem _ hh))]
      rintro rfl
      exact hk (List.mem_cons_self ..)
    · intro k q hq
      simp only [shiftC, Endo.put, hgp] at hq
      rw [List.getElem?_set] at hq
      split at hq
      · next hik =>
        split at hq
        · simp only [Option.some.injEq] at hq; subst hq hik; exact Or.inr hm
        · cases hq
      · exact i6 k q hq

/-- The equation before a repetition of the first equation solves for the variable that should become exogenous. -/
theorem shiftC_repeats {e : Endo} (he : e.posxk = owns) (i0 y : Nat) (hy : owns[i0]? = some y) :
    ∀ i tail, Chain owns objss exo i tail → tail.Nodup → (∀ j ∈ i :: tail, j < owns.length) → i0 ∈ tail →
      i ∉ tail ∨ i = i0 →
      (shiftC owns exo i tail e).posxk.length = owns.length ∧
      ((∃ a, a ∈ i :: tail ∧ a ≠ i0 ∧ (shiftC owns exo i tail e).posxk[a]? = some y)) := by
  have hlen : ∀ i tail, (shiftC owns exo i tail e).posxk.length = owns.length := by
    intro i tail
    induction tail generalizing i with
    | nil => simp [shiftC, Endo.put, he]
    | cons j r ih => simp only [shiftC, Endo.put, List.length_set]; exact ih j
  intro i tail hc
  induction hc with
  | last hm => intro _ _ h; cases h
  | @step i j p r hne hj hm hc ih =>
    intro hnd hb hmem hi
    refine ⟨hlen _ _, ?_⟩
    have hnd' := List.nodup_cons.1 hnd
    have hgp : owns.getD j 0 = p := by rw [List.getD_eq_getElem?_getD, hj]; rfl
    by_cases hj0 : j = i0
    · subst hj0
      refine ⟨i, List.mem_cons_self .., hne, ?_⟩
      rw [hj] at hy
      simp only [Option.some.injEq] at hy
      subst hy
      simp only [shiftC, Endo.put, hgp]
      rw [List.getElem?_set_self]
      rw [hlen]
      exact hb i (List.mem_cons_self ..)
    · have hmem' : i0 ∈ r := (List.mem_cons.1 hmem).resolve_left fun h => hj0 h.symm
      obtain ⟨_, a, ha1, ha2, ha3⟩ := ih hnd'.2 (fun k hk => hb k (List.mem_cons_of_mem _ hk)) hmem' (Or.inl hnd'.1)
      refine ⟨a, List.mem_cons_of_mem _ ha1, ha2, ?_⟩
      simp only [shiftC, Endo.put]
      rw [List.getElem?_set_ne, ha3]
      rintro rfl
      rcases hi with hi | hi
      · exact hi ha1
      · exact ha2 hi

theorem Chain.bound {i : Nat} {tail : List Nat} (h : Chain owns objss exo i tail) : ∀ j ∈ tail, j < owns.length := by
  induction h with
  | last _ => intro j hj; cases hj
  | @step i j p r _ hj _ _ ih =>
    intro k hk
    rcases List.mem_cons.1 hk with rfl | hk
    · exact (List.getElem?_eq_some_iff.1 hj).1
    · exact ih k hk

theorem link_fresh {nv : Nat} (hd : owns.Nodup) (hb : ∀ p ∈ owns, p < nv) : (Endo.link nv owns).Fresh owns :=
  ⟨rfl, link_eqOf hd hb⟩

theorem link_rev_length (nv : Nat) : (Endo.link nv owns).rev.length = nv := by
  unfold Endo.link
  simp only
  have : ∀ (is : List Nat) (r : List (Option Nat)),
      (is.foldl (fun r i => r.set (owns.getD i 0) (some i)) r).length = r.length := by
    intro is
    induction is with
    | nil => intro r; rfl
    | cons i is ih => intro r; rw [List.foldl_cons, ih, List.length_set]
  rw [this, List.length_replicate]

/-- When the exchange of `y` and `x` is made in a model without exchanges so far, and `y` is then not solved for, the variables
solved for are those of before with `y` replaced by `x`, each is solved by one equation, an equation whose unknown changed
contains its new unknown, and the table of equations by variable is right.

Missing for the full statement: that `y` is not solved for, which is false (see the counterexample), and earlier exchanges
(see the second counterexample). -/
theorem C37_exchange_swaps_partial (nv : Nat) (owns : List Nat) (hd : owns.Nodup) (hb : ∀ p ∈ owns, p < nv)
    (objss : List (List (Option Nat))) (y x : Nat) (hx : x < nv) (e' : Endo)
    (h : exchange owns objss y x (Endo.link nv owns) = .ok (true, e')) (hy : y ∉ e'.posxk) :
    y ∈ owns ∧ x ∉ owns ∧ e'.posxk.Nodup ∧ (∀ v, v ∈ e'.posxk ↔ (v ∈ owns ∧ v ≠ y) ∨ v = x) ∧ e'.Solved ∧
      ∀ j p, e'.posxk[j]? = some p → owns[j]? = some p ∨ some p ∈ objss.getD j [] := by
  have hf := link_fresh hd hb
  unfold exchange at h
  split at h
  · simp at h
  · next i hi =>
    split at h
    · simp at h
    · next hxn =>
      obtain ⟨r, h1, h⟩ := bind_ok_inv h
      simp only [Res.ok.injEq, Prod.mk.injEq] at h
      obtain ⟨hr, rfl⟩ := h
      have hyi := (link_eqOf hd hb y i).1 hi
      have hxo : x ∉ owns := by
        intro hh
        obtain ⟨j, hj⟩ := List.mem_iff_getElem?.1 hh
        rw [(link_eqOf hd hb x j).2 hj] at hxn
        cases hxn
      obtain ⟨i', tail, c1, c2, c3, _, c5⟩ := (findPath_spec hf hd _ _ ⟨_, []⟩ r rfl h1).2 hr
      have := own_inj hd c1 hyi
      subst this
      have hi' : i' < owns.length := (List.getElem?_eq_some_iff.1 c1).1
      have hnt : i' ∉ tail := by
        intro hmem
        obtain ⟨_, a, _, _, ha⟩ := shiftC_repeats (e := Endo.link nv owns) rfl i' y c1 i' tail c2 c3
          (fun j hj => (List.mem_cons.1 hj).elim (fun e => e ▸ hi') (c2.bound j)) hmem (Or.inr rfl)
        rw [c5] at hy
        exact hy (List.mem_of_getElem? ha)
      have hin : (Endo.link nv owns).Indexed := fun k p hk => (link_rev hd hb p k).2 hk
      obtain ⟨g1, g2, g3, _, _, g6⟩ := shiftC_spec hd hxo (e := Endo.link nv owns) rfl hin
        (by rw [link_rev_length]; exact hb) (by rw [link_rev_length]; exact hx) i' tail c2 (List.nodup_cons.2 ⟨hnt, c3⟩) y c1
      rw [c5]
      exact ⟨List.mem_of_getElem? c1, hxo, g1, g2, g3.solved g1, g6⟩

/-- `y` is then not solved for if its equation contains `x`, or if no other equation contains `y`. -/
theorem C37_target_becomes_exogenous_partial (nv : Nat) (owns : List Nat) (hd : owns.Nodup) (hb : ∀ p ∈ owns, p < nv)
    (objss : List (List (Option Nat))) (y x : Nat) (e' : Endo)
    (h : exchange owns objss y x (Endo.link nv owns) = .ok (true, e')) (i : Nat) (hi : owns[i]? = some y)
    (hc : some x ∈ objss.getD i [] ∨ ∀ j, j ≠ i → some y ∉ objss.getD j []) : y ∉ e'.posxk := by
  have hf := link_fresh hd hb
  have hyi := (link_eqOf hd hb y i).2 hi
  unfold exchange at h
  rw [hyi] at h
  simp only at h
  split at h
  · simp at h
  · next hxn =>
    have hxo : x ∉ owns := by
      intro hh
      obtain ⟨j, hj⟩ := List.mem_iff_getElem?.1 hh
      rw [(link_eqOf hd hb x j).2 hj] at hxn
      cases hxn
    obtain ⟨r, h1, h⟩ := bind_ok_inv h
    simp only [Res.ok.injEq, Prod.mk.injEq] at h
    obtain ⟨hr, rfl⟩ := h
    have hxy : y ≠ x := fun hh => hxo (hh ▸ List.mem_of_getElem? hi)
    -- what can be solved for by an equation
    have key : ∀ i' tail, Chain owns objss x i' tail → (∀ j, j ≠ i → some y ∉ objss.getD j []) → i' = i ∨ i' ≠ i →
        ∀ e : Endo, e.posxk = owns → ∀ k, k ≠ i → (shiftC owns x i' tail e).posxk[k]? ≠ some y := by
      intro i' tail hch hno _ e he
      induction hch with
      | last hm =>
        intro k hk hky
        simp only [shiftC, Endo.put, he] at hky
        rw [List.getElem?_set] at hky
        split at hky
        · split at hky
          · simp only [Option.some.injEq] at hky; exact hxy hky.symm
          · cases hky
        · exact hk (own_inj hd hky hi)
      | @step a b p r hne hj hm _ ih =>
        intro k hk hky
        have hgp : owns.getD b 0 = p := by rw [List.getD_eq_getElem?_getD, hj]; rfl
        simp only [shiftC, Endo.put, hgp] at hky
        rw [List.getElem?_set] at hky
        split at hky
        · next hak =>
          split at hky
          · simp only [Option.some.injEq] at hky
            subst hky hak
            exact hno a hk hm
          · cases hky
        · exact ih (Or.symm (Decidable.ne_or_eq ..)) k hk hky
    rcases hc with hc | hc
    · -- found at once
      simp only [findPath] at h1
      obtain ⟨i', h2, h1⟩ := bind_ok_inv h1
      have := own_inj hd (eqNamed_ok h2) hi
      subst this
      rw [hyi] at h1
      simp only [hc, if_true, Res.ok.injEq] at h1
      subst h1
      simp only [Endo.put]
      have := (set_nodup hd hi hxo).2 y
      show y ∉ owns.set i' x
      rw [this]
      rintro (h | h)
      · exact h.2 rfl
      · exact hxy h
    · obtain ⟨i', tail, c1, c2, c3, _, c5⟩ := (findPath_spec hf hd _ _ ⟨_, []⟩ r rfl h1).2 hr
      have := own_inj hd c1 hi
      subst this
      rw [c5]
      intro hmem
      obtain ⟨k, hk⟩ := List.mem_iff_getElem?.1 hmem
      by_cases hki : k = i'
      · subst hki
        -- the first equation is written last
        cases c2 with
        | last hm =>
          simp only [shiftC, Endo.put] at hk
          rw [List.getElem?_set] at hk
          simp only [if_true] at hk
          split at hk
          · simp only [Option.some.injEq] at hk; exact hxy hk.symm
          · cases hk
        | @step _ b p r hne hj hm _ =>
          have hgp : owns.getD b 0 = p := by rw [List.getD_eq_getElem?_getD, hj]; rfl
          simp only [shiftC, Endo.put, hgp] at hk
          rw [List.getElem?_set] at hk
          simp only [if_true] at hk
          split at hk
          · simp only [Option.some.injEq] at hk
            subst hk
            exact hne (own_inj hd hi hj)
          · cases hk
      · exact key i' tail c2 hc (Or.inl rfl) _ rfl k hki hk

/-- On a model without exchanges so far the search always ends with an answer. -/
theorem findPath_total {e : Endo} (he : e.Fresh owns) (hd : owns.Nodup) : ∀ fuel p k, k.endo = e → p ∈ owns →
    ∃ r, findPath owns objss exo fuel p k = .ok r := by
  intro fuel
  induction fuel with
  | zero => intro p k _ _; exact ⟨_, rfl⟩
  | succ fuel ih =>
    intro p k hk hp
    obtain ⟨i, hi⟩ := List.mem_iff_getElem?.1 hp
    have h1 : ∃ j, eqNamed owns p = .ok j := by
      unfold eqNamed
      cases hf : owns.findIdx? (· = p) with
      | some j => exact ⟨j, rfl⟩
      | none =>
        rw [List.findIdx?_eq_none_iff] at hf
        have := hf p hp
        simp at this
    obtain ⟨j, h1⟩ := h1
    have h2 : k.endo.eqOf p = some i := by rw [hk]; exact (he.2 p i).2 hi
    simp only [findPath, h1, Res.bind, h2]
    split
    · exact ⟨_, rfl⟩
    · have scan : ∀ objs k, k.endo = e → ∃ r, scanVars (findPath owns objss exo fuel) i objs k = .ok r := by
        intro objs
        induction objs with
        | nil => intro k _; exact ⟨_, rfl⟩
        | cons a objs iho =>
          intro k hk
          cases a with
          | none => simp only [scanVars]; exact iho k hk
          | some p' =>
            simp only [scanVars]
            split
            · exact iho k hk
            · next j' hj' =>
              split
              · exact iho k hk
              · rw [hk] at hj'
                obtain ⟨r1, hr1⟩ := ih p' ⟨k.endo, j' :: k.path⟩ hk (List.mem_of_getElem? ((he.2 p' j').1 hj'))
                rw [hr1]
                simp only [Res.bind]
                split
                · exact ⟨_, rfl⟩
                · next ht =>
                  exact iho r1.2 ((findPath_spec he hd _ _ ⟨k.endo, j' :: k.path⟩ _ hk hr1).1 (by simpa using ht)).1
      exact scan _ k hk

theorem Chain.reaches {e : Endo} (he : e.posxk = owns) {i : Nat} {tail : List Nat} (hi : i < objss.length)
    (h : Chain owns objss exo i tail) (hb : owns.length = objss.length) :
    ∃ j, Relation.ReflTransGen (DependsOn e objss) i j ∧ some exo ∈ objss.getD j [] := by
  induction h with
  | @last i hm => exact ⟨i, .refl, hm⟩
  | @step i j p r hne hj hm _ ih =>
    have hjl : j < objss.length := by rw [← hb]; exact (List.getElem?_eq_some_iff.1 hj).1
    obtain ⟨k, h1, h2⟩ := ih hjl
    refine ⟨k, .head ⟨hne, objss[i], p, List.getElem?_eq_getElem hi, ?_, by rw [he]; exact hj⟩ h1, h2⟩
    rwa [List.getD_eq_getElem?_getD, List.getElem?_eq_getElem hi] at hm

/-- In a model without exchanges so far, the exchange of the unknown of equation `i` and of a variable that is not solved for is
always answered; it is possible exactly if equation `i` uses, directly or through other equations, an equation that
contains the variable.  An impossible exchange changes nothing. -/
theorem C37_exchange_possible_iff (nv : Nat) (owns : List Nat) (hd : owns.Nodup) (hb : ∀ p ∈ owns, p < nv)
    (objss : List (List (Option Nat))) (hl : owns.length = objss.length) (i y x : Nat) (hi : owns[i]? = some y)
    (hx : x ∉ owns) :
    ∃ b e', exchange owns objss y x (Endo.link nv owns) = .ok (b, e') ∧ (b = false → e' = Endo.link nv owns) ∧
      (b = true ↔ ∃ j, Relation.ReflTransGen (DependsOn (Endo.link nv owns) objss) i j ∧ some x ∈ objss.getD j []) := by
  have hf := link_fresh hd hb
  have hil : i < owns.length := (List.getElem?_eq_some_iff.1 hi).1
  have hyi := (link_eqOf hd hb y i).2 hi
  have hxn : (Endo.link nv owns).eqOf x = none := by
    cases hxe : (Endo.link nv owns).eqOf x with
    | none => rfl
    | some j => exact absurd (List.mem_of_getElem? ((link_eqOf hd hb x j).1 hxe)) hx
  obtain ⟨⟨b, k⟩, hr⟩ := findPath_total (objss := objss) (exo := x) hf hd (owns.length + 1) y ⟨Endo.link nv owns, []⟩ rfl
    (List.mem_of_getElem? hi)
  refine ⟨b, k.endo, ?_, ?_, ?_⟩
  · unfold exchange
    rw [hyi, hxn]
    simp only [hr, Res.bind]
  · intro hbf
    exact ((findPath_spec hf hd _ _ ⟨_, []⟩ _ rfl hr).1 hbf).1
  · constructor
    · intro hbt
      obtain ⟨i', tail, c1, c2, _⟩ := (findPath_spec hf hd _ _ ⟨_, []⟩ _ rfl hr).2 hbt
      have := own_inj hd c1 hi
      subst this
      exact c2.reaches rfl (by omega) hl
    · rintro ⟨j, hj, hm⟩
      cases b with
      | true => rfl
      | false =>
        exfalso
        obtain ⟨⟨f1, f2, f3, f4⟩, f5⟩ := findPath_fail hf hd _ y i ⟨_, []⟩ k rfl ⟨List.nodup_nil, (fun _ h => by cases h)⟩
          (by simp) hi hr
        have closed : ∀ u, u = i ∨ u ∈ k.path → Done owns objss x k.path u := by
          rintro u (rfl | hu)
          · exact f5
          · exact f4 u hu (by simp)
        have reach : j = i ∨ j ∈ k.path := by
          clear hm
          induction hj with
          | refl => exact Or.inl rfl
          | @tail a c _ hac ih =>
            obtain ⟨_, objs, p, ho, hp, hc⟩ := hac
            have := (closed a ih).2 p c (by rw [List.getD_eq_getElem?_getD, ho]; exact hp) hc
            rcases this with rfl | h
            · exact ih
            · exact Or.inr h
        exact (closed j reach).1 hm

/-- After an exchange with which `y` is not solved for, the simulation leaves the values of `y` alone. -/
theorem C37_target_is_kept {F : Type} (A : Flo F) (o : SimOpts F) (sort : SortBy) (passes nb nv : Nat) (eqs : List (Eqn F))
    (y x : Nat) (e' : Endo)
    (h : exchange (eqs.map (·.own)) (eqs.map (·.objs)) y x (Endo.link nv (eqs.map (·.own))) = .ok (true, e'))
    (hy : y ∉ e'.posxk) (hyx : y ≠ x) (names : List (Option Nat)) (t : Int) (n : Nat) (s s' : Store F) (ok : Bool)
    (hs : simulateGoals A o sort passes nb nv eqs [(y, x)] names t n s = .ok (ok, s')) (u : Int) : s' y u = s y u := by
  unfold simulateGoals at hs
  simp only [exchanges, h, Res.bind, Bool.true_eq_false, if_false] at hs
  exact C36_only_endogenous_at_simulated_periods A o sort passes nb eqs e' [x] names t n s s' ok hs y u
    (by simpa using hyx) (fun hh => hy hh.1)

/-- A simulation with exchanges that reports success has made them all; if one is impossible nothing is computed. -/
theorem C37_success_means_exchanged {F : Type} (A : Flo F) (o : SimOpts F) (sort : SortBy) (passes nb nv : Nat) (eqs : List (Eqn F))
    (pairs : List (Nat × Nat)) (names : List (Option Nat)) (t : Int) (n : Nat) (s s' : Store F) (ok : Bool)
    (hs : simulateGoals A o sort passes nb nv eqs pairs names t n s = .ok (ok, s')) :
    ∃ made e', exchanges (eqs.map (·.own)) (eqs.map (·.objs)) pairs (Endo.link nv (eqs.map (·.own))) = .ok (made, e') ∧
      (made = false → ok = false ∧ s' = s) ∧
      (made = true → simulate A o sort passes nb eqs e' (pairs.map (·.2)) names t n s = .ok (ok, s')) := by
  unfold simulateGoals at hs
  obtain ⟨⟨made, e'⟩, h1, h2⟩ := bind_ok_inv hs
  refine ⟨made, e', h1, ?_, ?_⟩
  · rintro rfl
    simp only [if_true] at h2
    cases h2
    exact ⟨rfl, rfl⟩
  · rintro rfl
    simpa only [Bool.true_eq_false, if_false] using h2

/-! ## Examples -/

/-- The model of the comment in the code: `y1 = f1(y2, x1)`, `y2 = f2(y3, x1)`, `y3 = f3(y1, y2, x1, x2)`; the variables are
`x1 = 0`, `x2 = 1`, `y1 = 2`, `y2 = 3`, `y3 = 4`. -/
def exGoalObjs : List (List (Option Nat)) := [[some 3, some 0], [none, some 4, some 0], [some 2, some 3, some 0, some 1]]

/-- `y1` and `x2`: the first equation solves for `y2`, the second for `y3`, the third for `x2`. -/
example : exchange [2, 3, 4] exGoalObjs 2 1 (Endo.link 5 [2, 3, 4]) = .ok (true, ⟨[3, 4, 1], [none, some 2, some 0, some 0, some 1]⟩) ∧
    2 ∉ [3, 4, 1] := by decide +kernel

/-- No other equation contains `y3` in the model without the second equation. -/
example : exchange [2, 4] [[some 3, some 0], [some 2, some 3, some 0, some 1]] 4 0 (Endo.link 5 [2, 4]) =
    .ok (true, ⟨[2, 0], [some 1, none, some 0, none, some 1]⟩) := by decide +kernel

/-- An impossible exchange: `y3` with a variable in no equation. -/
example : exchange [2, 3, 4] exGoalObjs 4 5 (Endo.link 6 [2, 3, 4]) = .ok (false, Endo.link 6 [2, 3, 4]) := by decide +kernel

/-- A goal reached: `0 = 1 / 4 + 2`, `1 = 0 / 2`; 0 shall be 70 at period 1, 2 is adapted. -/
example : endsWith (simulateGoals ratFlo exOpts .both 5 5 3 exEqs [(0, 2)] [] 1 1 (Store.set exStore 0 1 70)) true
    (fun s => decide (s 0 1 = 70 ∧ s 1 1 = 35 ∧ 61 < s 2 1 ∧ s 2 1 < 62)) = true := by decide +kernel

/-- The equation that is started from is not marked: `y1 = f(y2, y3)`, `y2 = g(y1)`, `y3 = h(x)`; the variables are `x = 0`,
`y1 = 1`, `y2 = 2`, `y3 = 3`.  The exchange of `y1` and `x` is reported as made, but `y1` is still solved for and `y3` is not
any more. -/
theorem C37_target_still_solved_counterexample :
    exchange [1, 2, 3] [[some 2, some 3], [some 1], [some 0]] 1 0 (Endo.link 4 [1, 2, 3]) =
      .ok (true, ⟨[2, 1, 0], [some 2, some 1, some 0, some 0]⟩) := by decide +kernel

/-- Two exchanges: `y1 = f(y2, x1)`, `y2 = g(x2)`; the variables are `x1 = 0`, `x2 = 1`, `y1 = 2`, `y2 = 3`.  After that of
`y1` and `x2` the first equation solves for `y2`.  It contains `x1`, yet the exchange of `y2` and `x1` searches the equation
with the name of `y2`, then one with the name of `x2`, which does not exist: an exception leaves the simulation. -/
theorem C37_second_exchange_counterexample :
    exchanges [2, 3] [[some 3, some 0], [some 1]] [(2, 1)] (Endo.link 4 [2, 3]) =
        .ok (true, ⟨[3, 1], [none, some 1, some 0, some 0]⟩) ∧
      exchanges [2, 3] [[some 3, some 0], [some 1]] [(2, 1), (3, 0)] (Endo.link 4 [2, 3]) = .err := by decide +kernel

end Iode.Sim
