import Verif.Model.Idt
import Verif.Lemmas.LecLink
import Verif.Lemmas.SMap
import Mathlib.Data.List.Nodup
import Mathlib.Data.List.Perm.Subperm
import Mathlib.Logic.Relation

/-!
# C38: the order in which identities are executed

An order is valid if every identity comes after the identities its formula mentions.
-/
namespace Iode.Idt

open Iode.Lec

/-! ## What a valid order is -/

/-- The formula of identity `i` mentions the name of another identity, `j`. -/
def Uses (dbi : Idts) (i j : Nat) : Prop :=
  j ≠ i ∧ ∃ x f y g, dbi[i]? = some (x, f) ∧ dbi[j]? = some (y, g) ∧
    ∃ n ∈ (group f.text).filterMap tokName, isCoef n = false ∧ toKey .identities n = y

/-- All identities once, each after those it uses. -/
structure ValidOrder (dbi : Idts) (order : List Nat) : Prop where
  perm : order.Perm (List.range dbi.length)
  after : ∀ pre i post, order = pre ++ i :: post → ∀ j, Uses dbi i j → j ∈ pre

/-- An identity needs itself through others. -/
def Circular (dbi : Idts) : Prop := ∃ i, Relation.TransGen (Uses dbi) i i

/-- A database of identities as `KDBIdentities` holds it: sorted by keys, the keys are in capital letters. -/
structure Stored (dbi : Idts) : Prop where
  sorted : SMap.Sorted dbi
  keys : ∀ e ∈ dbi, toKey .identities e.1 = e.1

/-- Every name of a variable is written in capital letters. -/
def Plain (dbi : Idts) : Prop :=
  ∀ e ∈ dbi, ∀ n ∈ (group e.2.text).filterMap tokName, isCoef n = false → toKey .identities n = n

/-! ## One test -/

theorem sorted_nodup {V : Type} : ∀ {m : SMap V}, SMap.Sorted m → (m.map Prod.fst).Nodup
  | [], _ => by simp
  | e :: m, h => by
    simp only [SMap.Sorted] at h
    simp only [List.map_cons, List.nodup_cons]
    refine ⟨fun hm => ?_, sorted_nodup h.2⟩
    have := h.1 e.1 hm
    rw [SMap.nameLt_irrefl] at this
    cases this

theorem indexOf_get {V : Type} {ty : ObjType} {m : SMap V} {n : Name} {p : Nat} (h : indexOf ty m n = some p) :
    ∃ v, m[p]? = some (toKey ty n, v) := by
  unfold indexOf at h
  rw [List.findIdx?_eq_some_iff_getElem] at h
  obtain ⟨hp, he, _⟩ := h
  simp only [decide_eq_true_eq] at he
  exact ⟨m[p].2, by rw [List.getElem?_eq_getElem hp, ← he]⟩

theorem indexOf_of_get {V : Type} {ty : ObjType} {m : SMap V} (hm : (m.map Prod.fst).Nodup) {n : Name} {p : Nat} {v : V}
    (h : m[p]? = some (toKey ty n, v)) : indexOf ty m n = some p := by
  obtain ⟨hp, hv⟩ := List.getElem?_eq_some_iff.1 h
  unfold indexOf
  rw [List.findIdx?_eq_some_iff_getElem]
  refine ⟨hp, by simp [hv], fun j hj => ?_⟩
  simp only [decide_eq_true_eq]
  intro he
  have h1 : (m.map Prod.fst)[j]'(by simp; omega) = (m.map Prod.fst)[p]'(by simpa using hp) := by
    simp [he, hv]
  have := (List.Nodup.getElem_inj_iff hm).1 h1
  omega

/-- An identity that does not wait uses only placed ones. -/
theorem waits_false {dbi : Idts} (hn : Stored dbi) {placed : List Nat} {i : Nat} {x : Name} {f : Idt} (hi : dbi[i]? = some (x, f))
    (h : waits dbi placed x f = false) {j : Nat} (hu : Uses dbi i j) : j ∈ placed := by
  obtain ⟨hne, x', f', y, g, hi', hj, n, hm, hc, hk⟩ := hu
  rw [hi] at hi'
  cases hi'
  unfold waits at h
  rw [List.any_eq_false] at h
  have h1 := h n (lnames_mem.2 hm)
  have hix : indexOf .identities dbi n = some j := indexOf_of_get (sorted_nodup hn.sorted) (v := g) (by rw [hk]; exact hj)
  have hnx : n ≠ x := by
    rintro rfl
    have hkn : toKey .identities n = n := hn.keys _ (List.mem_of_getElem? hi)
    have hi2 : indexOf .identities dbi n = some i := indexOf_of_get (sorted_nodup hn.sorted) (v := f) (by rw [hkn]; exact hi)
    rw [hix] at hi2
    exact hne (Option.some.inj hi2)
  rw [hix] at h1
  simp [hc, hnx] at h1
  exact h1

/-- One that waits uses another one that is not placed, if names are written as they are stored. -/
theorem waits_true {dbi : Idts} (hp : Plain dbi) {placed : List Nat} {i : Nat} {x : Name} {f : Idt}
    (hi : dbi[i]? = some (x, f)) (h : waits dbi placed x f = true) : ∃ j, Uses dbi i j ∧ j ∉ placed := by
  unfold waits at h
  rw [List.any_eq_true] at h
  obtain ⟨n, hn, h⟩ := h
  simp only [Bool.and_eq_true, Bool.not_eq_true', decide_eq_true_eq] at h
  obtain ⟨⟨hc, hx⟩, h⟩ := h
  cases hix : indexOf .identities dbi n with
  | none => rw [hix] at h; cases h
  | some j =>
    rw [hix] at h
    simp only [decide_eq_true_eq] at h
    obtain ⟨g, hj⟩ := indexOf_get hix
    refine ⟨j, ⟨?_, x, f, _, g, hi, hj, n, lnames_mem.1 hn, hc, rfl⟩, h⟩
    rintro rfl
    rw [hi] at hj
    rw [hp _ (List.mem_of_getElem? hi) n (lnames_mem.1 hn) hc] at hj
    cases hj
    exact hx rfl

/-! ## Passes -/

/-- Each placed identity comes after those it uses; none twice; they exist. -/
structure Good (dbi : Idts) (placed : List Nat) : Prop where
  nodup : placed.Nodup
  lt : ∀ i ∈ placed, i < dbi.length
  after : ∀ pre i post, placed = pre ++ i :: post → ∀ j, Uses dbi i j → j ∈ pre

theorem Good.snoc {dbi : Idts} {placed : List Nat} (h : Good dbi placed) {i : Nat} (hi : i ∉ placed) (hl : i < dbi.length)
    (hu : ∀ j, Uses dbi i j → j ∈ placed) : Good dbi (placed ++ [i]) := by
  refine ⟨?_, ?_, ?_⟩
  · rw [List.nodup_append]
    exact ⟨h.nodup, by simp, fun a ha b hb => by
      rw [List.mem_singleton.1 hb]; rintro rfl; exact hi ha⟩
  · intro j hj
    rcases List.mem_append.1 hj with hj | hj
    · exact h.lt j hj
    · rw [List.mem_singleton.1 hj]; exact hl
  · intro pre k post he j hj
    by_cases hpost : post = []
    · subst hpost
      obtain ⟨h1, h2⟩ := List.append_inj' he rfl
      cases h2
      subst h1
      exact hu j hj
    · obtain ⟨l, z, rfl⟩ : ∃ l z, post = l ++ [z] := ⟨post.dropLast, post.getLast hpost, (List.dropLast_append_getLast hpost).symm⟩
      have : placed ++ [i] = (pre ++ k :: l) ++ [z] := by rw [he]; simp
      obtain ⟨h1, _⟩ := List.append_inj' this rfl
      exact h.after pre k l h1 j hj

/-- A pass keeps what is placed and appends. -/
theorem pass_good {dbi : Idts} (hn : Stored dbi) : ∀ (es : List (Name × Idt)) (i : Nat) (placed : List Nat),
    (i ∈ placed ∨ ∀ k, es[k]? = dbi[i + k]?) → Good dbi placed →
    Good dbi (pass dbi es i placed) ∧ ∃ l, pass dbi es i placed = placed ++ l
  | [], i, placed, _, h => ⟨by simpa [pass] using h, [], by simp [pass]⟩
  | (x, f) :: es, i, placed, hs, h => by
    unfold pass
    by_cases hi : i ∈ placed
    · rw [if_pos hi]
      exact pass_good hn es i placed (Or.inl hi) h
    · rw [if_neg hi]
      have hs := hs.resolve_left hi
      have hix : dbi[i]? = some (x, f) := by have := hs 0; simpa using this.symm
      have hs' : ∀ k, es[k]? = dbi[i + 1 + k]? := fun k => by
        have := hs (k + 1)
        rw [List.getElem?_cons_succ] at this
        rw [this]; congr 1; omega
      cases hw : waits dbi placed x f with
      | true => simpa using pass_good hn es (i + 1) placed (Or.inr hs') h
      | false =>
        simp only [Bool.false_eq_true, if_false]
        have hl : i < dbi.length := (List.getElem?_eq_some_iff.1 hix).1
        have hg := h.snoc hi hl (fun j hj => waits_false hn hix hw hj)
        obtain ⟨h1, l, h2⟩ := pass_good hn es (i + 1) (placed ++ [i]) (Or.inr hs') hg
        exact ⟨h1, i :: l, by rw [h2]; simp⟩

theorem Good.length_le {dbi : Idts} {placed : List Nat} (h : Good dbi placed) : placed.length ≤ dbi.length := by
  have : placed.Subperm (List.range dbi.length) := List.subperm_of_subset h.nodup (fun i hi => List.mem_range.2 (h.lt i hi))
  simpa using this.length_le

theorem passes_good {dbi : Idts} (hn : Stored dbi) : ∀ (fuel : Nat) (placed order : List Nat),
    Good dbi placed → passes dbi fuel placed = some order → Good dbi order ∧ dbi.length ≤ order.length
  | 0, _, _, _, h => by cases h
  | fuel + 1, placed, order, hg, h => by
    unfold passes at h
    by_cases hl : dbi.length ≤ placed.length
    · rw [if_pos hl] at h; cases h; exact ⟨hg, hl⟩
    · rw [if_neg hl] at h
      simp only at h
      split at h
      · cases h
      · exact passes_good hn fuel _ order (pass_good hn dbi 0 placed (Or.inr fun k => by simp) hg).1 h

theorem good_nil (dbi : Idts) : Good dbi [] := ⟨by simp, by simp, by simp⟩

/-- An accepted set is executed in a valid order. -/
theorem C38_order_is_valid {dbi : Idts} (hn : Stored dbi) {order : List Nat} (h : reorder dbi = some order) :
    ValidOrder dbi order := by
  obtain ⟨hg, hl⟩ := passes_good hn _ _ _ (good_nil dbi) h
  refine ⟨?_, hg.after⟩
  have hs : order.Subperm (List.range dbi.length) :=
    List.subperm_of_subset hg.nodup (fun i hi => List.mem_range.2 (hg.lt i hi))
  exact hs.perm_of_length_le (by simpa using hl)

/-- In a valid order the identity used stands before. -/
theorem ValidOrder.lt {dbi : Idts} {order : List Nat} (h : ValidOrder dbi order) {i j : Nat} (hu : Uses dbi i j) :
    order.idxOf j < order.idxOf i := by
  have hnd : order.Nodup := h.perm.nodup_iff.2 List.nodup_range
  have hi : i < dbi.length := by
    obtain ⟨_, x, f, _, _, hi, _⟩ := hu
    exact (List.getElem?_eq_some_iff.1 hi).1
  have hm : i ∈ order := h.perm.mem_iff.2 (List.mem_range.2 hi)
  obtain ⟨pre, post, rfl⟩ := List.append_of_mem hm
  have hj := h.after pre i post rfl j hu
  have hip : i ∉ pre := by
    rw [List.nodup_append] at hnd
    exact fun hp => hnd.2.2 i hp i (by simp) rfl
  rw [List.idxOf_append_of_mem hj, List.idxOf_append_of_notMem hip]
  have := List.idxOf_lt_length_of_mem hj
  omega

/-- A set with a valid order is not circular. -/
theorem ValidOrder.not_circular {dbi : Idts} {order : List Nat} (h : ValidOrder dbi order) : ¬ Circular dbi := by
  rintro ⟨i, hi⟩
  have : ∀ {a b}, Relation.TransGen (Uses dbi) a b → order.idxOf b < order.idxOf a := by
    intro a b hab
    induction hab with
    | single h1 => exact h.lt h1
    | tail _ h1 ih => have := h.lt h1; omega
  exact Nat.lt_irrefl _ (this hi)

/-- A circular set is rejected. -/
theorem C38_circular_rejected {dbi : Idts} (hn : Stored dbi) (hc : Circular dbi) : reorder dbi = none := by
  cases h : reorder dbi with
  | none => rfl
  | some order => exact absurd hc (C38_order_is_valid hn h).not_circular

/-! ## Which sets are accepted -/

/-- The bound on the number of passes is never met. -/
theorem C38_passes_suffice {dbi : Idts} (hn : Stored dbi) {fuel : Nat} (hf : dbi.length + 1 ≤ fuel) :
    passes dbi fuel [] = reorder dbi := by
  have key : ∀ (fuel k : Nat) (placed : List Nat), Good dbi placed → dbi.length + 1 ≤ fuel + placed.length →
      passes dbi (fuel + k) placed = passes dbi fuel placed := by
    intro fuel
    induction fuel with
    | zero =>
      intro k placed hg hl
      have := hg.length_le
      omega
    | succ fuel ih =>
      intro k placed hg hl
      rw [show fuel + 1 + k = (fuel + k) + 1 by omega]
      unfold passes
      by_cases h1 : dbi.length ≤ placed.length
      · rw [if_pos h1, if_pos h1]
      · rw [if_neg h1, if_neg h1]
        simp only
        obtain ⟨hg', l, hl'⟩ := pass_good hn dbi 0 placed (Or.inr fun k => by simp) hg
        by_cases h2 : (pass dbi dbi 0 placed).length = placed.length
        · rw [if_pos h2, if_pos h2]
        · rw [if_neg h2, if_neg h2]
          refine ih k _ hg' ?_
          rw [hl', List.length_append] at h2 ⊢
          omega
  have := key (dbi.length + 1) (fuel - (dbi.length + 1)) [] (good_nil dbi) (by simp)
  rw [show dbi.length + 1 + (fuel - (dbi.length + 1)) = fuel by omega] at this
  exact this

/-- If each identity uses only identities with smaller names, one pass places all in the order of the names. -/
theorem pass_alphabetic {dbi : Idts} (hp : Plain dbi) (hu : ∀ i j, Uses dbi i j → j < i) :
    ∀ (es : List (Name × Idt)) (i : Nat), (∀ k, es[k]? = dbi[i + k]?) →
      pass dbi es i (List.range i) = List.range (i + es.length)
  | [], i, _ => by simp [pass]
  | (x, f) :: es, i, hs => by
    have hix : dbi[i]? = some (x, f) := by have := hs 0; simpa using this.symm
    have hs' : ∀ k, es[k]? = dbi[i + 1 + k]? := fun k => by
      have := hs (k + 1)
      rw [List.getElem?_cons_succ] at this
      rw [this]; congr 1; omega
    have hw : waits dbi (List.range i) x f = false := by
      cases h : waits dbi (List.range i) x f with
      | false => rfl
      | true =>
        obtain ⟨j, hj, hm⟩ := waits_true hp hix h
        exact absurd (List.mem_range.2 (hu i j hj)) hm
    unfold pass
    rw [if_neg (by simp), hw]
    simp only [Bool.false_eq_true, if_false]
    rw [← List.range_succ, pass_alphabetic hp hu es (i + 1) hs']
    simp; congr 1; omega

/-- A set in which the order of the names is valid is accepted, and executed in this order. -/
theorem C38_alphabetic_accepted {dbi : Idts} (hn : Stored dbi) (hp : Plain dbi) (hu : ∀ i j, Uses dbi i j → j < i) :
    reorder dbi = some (List.range dbi.length) := by
  cases dbi with
  | nil => rfl
  | cons e es =>
    unfold reorder
    unfold passes
    rw [if_neg (by simp)]
    have h0 := pass_alphabetic hp hu (e :: es) 0 (fun k => by simp)
    simp only [List.range_zero, Nat.zero_add] at h0
    simp only [h0]
    rw [if_neg (by simp)]
    simp only [List.length_cons]
    unfold passes
    rw [if_pos (by simp)]

/-- While the first identity is placed a pass does nothing. -/
theorem pass_stuck (dbi : Idts) : ∀ (es : List (Name × Idt)) {i : Nat} {placed : List Nat}, i ∈ placed → pass dbi es i placed = placed
  | [], _, _, _ => by simp [pass]
  | (x, f) :: es, i, placed, h => by
    unfold pass
    rw [if_pos h]
    exact pass_stuck dbi es h

/-- What the first pass places: `i` is placed if it only uses placed ones that come before it. -/
theorem pass_complete_only {dbi : Idts} (hn : Stored dbi) : ∀ (es : List (Name × Idt)) (i : Nat) (placed : List Nat),
    (∀ k, es[k]? = dbi[i + k]?) → (∀ j ∈ placed, j < i) →
    (∀ k, i ≤ k → k < i + es.length → k ∈ pass dbi es i placed) →
    ∀ k, i ≤ k → k < i + es.length → ∀ j, Uses dbi k j → j < k
  | [], i, _, _, _, _ => fun k h1 h2 => by simp at h2; omega
  | (x, f) :: es, i, placed, hs, hlt, hall => by
    have hix : dbi[i]? = some (x, f) := by have := hs 0; simpa using this.symm
    have hs' : ∀ k, es[k]? = dbi[i + 1 + k]? := fun k => by
      have := hs (k + 1)
      rw [List.getElem?_cons_succ] at this
      rw [this]; congr 1; omega
    have hi : i ∉ placed := fun h => Nat.lt_irrefl _ (hlt i h)
    have only : ∀ (es : List (Name × Idt)) (i' : Nat) (placed : List Nat), i ∈ pass dbi es i' placed → i < i' → i ∈ placed := by
      intro es
      induction es with
      | nil => intro i' placed h _; simpa [pass] using h
      | cons e es ih =>
        obtain ⟨x, f⟩ := e
        intro i' placed h hlt
        unfold pass at h
        split at h
        · exact ih i' placed h hlt
        · split at h
          · exact ih (i' + 1) placed h (by omega)
          · have := ih (i' + 1) (placed ++ [i']) h (by omega)
            rcases List.mem_append.1 this with h | h
            · exact h
            · rw [List.mem_singleton.1 h] at hlt; omega
    unfold pass at hall
    rw [if_neg hi] at hall
    cases hw : waits dbi placed x f with
    | true =>
      rw [hw] at hall
      simp only [if_true] at hall
      exact absurd (only es (i + 1) placed (hall i (Nat.le_refl _) (by simp)) (by omega)) hi
    | false =>
      rw [hw] at hall
      simp only [Bool.false_eq_true, if_false] at hall
      intro k h1 h2 j hj
      by_cases hk : k = i
      · subst hk
        exact hlt j (waits_false hn hix hw hj)
      · refine pass_complete_only hn es (i + 1) (placed ++ [i]) hs' ?_ ?_ k (by omega) (by simp at h2; omega) j hj
        · intro j hj
          rcases List.mem_append.1 hj with h | h
          · exact Nat.lt_succ_of_lt (hlt j h)
          · rw [List.mem_singleton.1 h]; omega
        · intro k h1 h2
          exact hall k (by omega) (by simp; omega)

/-- If the identity with the smallest name uses no other one, the set is accepted exactly if the order of the names is
valid: the passes after the first one place nothing. -/
theorem C38_accepted_iff_alphabetic_partial {dbi : Idts} (hn : Stored dbi) (hp : Plain dbi) (h0 : ∀ j, ¬ Uses dbi 0 j) :
    (∃ order, reorder dbi = some order) ↔ ∀ i j, Uses dbi i j → j < i := by
  constructor
  · rintro ⟨order, h⟩
    cases hd : dbi with
    | nil =>
      rw [hd] at hn
      rintro i j ⟨_, x, f, _, _, hi, _⟩
      simp at hi
    | cons e es =>
      rw [← hd]
      have hlen : dbi.length = es.length + 1 := by rw [hd]; rfl
      have hfirst : 0 ∈ pass dbi dbi 0 [] := by
        obtain ⟨x, f⟩ := e
        have hix : dbi[0]? = some (x, f) := by rw [hd]; rfl
        have hw : waits dbi [] x f = false := by
          cases hw : waits dbi [] x f with
          | false => rfl
          | true => obtain ⟨j, hj, _⟩ := waits_true hp hix hw; exact absurd hj (h0 j)
        have hg : Good dbi ([] ++ [0]) := (good_nil dbi).snoc (by simp) (by omega) (fun j hj => absurd hj (h0 j))
        have : pass dbi dbi 0 [] = pass dbi es 1 [0] := by
          conv => lhs; arg 2; rw [hd]
          rw [pass, if_neg (by simp), hw]
          rfl
        rw [this]
        obtain ⟨_, l, hl⟩ := pass_good hn es 1 [0] (Or.inr fun k => by rw [hd, Nat.add_comm, List.getElem?_cons_succ]) hg
        rw [hl]; simp
      unfold reorder at h
      unfold passes at h
      rw [if_neg (by rw [hlen]; simp)] at h
      simp only at h
      split at h
      · cases h
      · rw [hlen] at h
        unfold passes at h
        by_cases hfull : dbi.length ≤ (pass dbi dbi 0 []).length
        · obtain ⟨hg, _⟩ := pass_good hn dbi 0 [] (Or.inr fun k => by simp) (good_nil dbi)
          have hperm : (pass dbi dbi 0 []).Perm (List.range dbi.length) :=
            (List.subperm_of_subset hg.nodup (fun i hi => List.mem_range.2 (hg.lt i hi))).perm_of_length_le (by simpa using hfull)
          have := pass_complete_only hn dbi 0 [] (fun k => by simp) (by simp)
            (fun k _ hk => hperm.mem_iff.2 (List.mem_range.2 (by omega)))
          intro i j hu
          obtain ⟨_, x, f, _, _, hi, _⟩ := id hu
          have hi := (List.getElem?_eq_some_iff.1 hi).1
          exact this i (Nat.zero_le _) (by omega) j hu
        · rw [if_neg hfull] at h
          simp only [pass_stuck dbi dbi hfirst, if_true] at h
          cases h
  · intro hu
    exact ⟨_, C38_alphabetic_accepted hn hp hu⟩

/-! ## Examples -/

/-- `A = B + C`, `B = C * 2`, `C = X`: the comment of the code, each identity uses later names. -/
def exReverse : Idts :=
  [(nm 'A', ⟨[], [.var (nm 'B'), .op .plus, .var (nm 'C')]⟩), (nm 'B', ⟨[], [.var (nm 'C'), .op .times, .cst (.long 2)]⟩),
    (nm 'C', ⟨[], [.var (nm 'X'), .op .plus, .var (nm 'C'), .openb, .op .minus, .cst (.long 1), .closeb]⟩)]

example : reorder exReverse = some [2, 1, 0] := by decide +kernel

example : Stored exReverse := ⟨by simp [exReverse, SMap.Sorted]; decide, by decide⟩

/-- `A = X`, `B = A + c`, `C = A * B`. -/
def exAlpha : Idts :=
  [(nm 'A', ⟨[], [.var (nm 'X')]⟩), (nm 'B', ⟨[], [.var (nm 'A'), .op .plus, .coef (nm 'c')]⟩),
    (nm 'C', ⟨[], [.var (nm 'A'), .op .times, .var (nm 'B')]⟩)]

example : reorder exAlpha = some [0, 1, 2] ∧ Stored exAlpha ∧ Plain exAlpha :=
  ⟨by decide +kernel, ⟨by simp [exAlpha, SMap.Sorted]; decide, by decide⟩, by unfold Plain; decide⟩

/-- `A = B`, `B = A`. -/
def exCircle : Idts := [(nm 'A', ⟨[], [.var (nm 'B')]⟩), (nm 'B', ⟨[], [.var (nm 'A')]⟩)]

example : Circular exCircle :=
  ⟨0, .tail (.single (b := 1) ⟨by decide, _, _, _, _, rfl, rfl, nm 'B', by decide, by decide, by decide⟩)
    ⟨by decide, _, _, _, _, rfl, rfl, nm 'A', by decide, by decide, by decide⟩⟩

/-- `A = X`, `B = C + 1`, `C = X`: there is a valid order (`A`, `C`, `B`), but the set is rejected as circular. -/
def exRejected : Idts :=
  [(nm 'A', ⟨[], [.var (nm 'X')]⟩), (nm 'B', ⟨[], [.var (nm 'C'), .op .plus, .cst (.long 1)]⟩), (nm 'C', ⟨[], [.var (nm 'X')]⟩)]

/-- A set that is not circular and has a valid order is rejected. -/
theorem C38_acyclic_rejected_counterexample :
    Stored exRejected ∧ Plain exRejected ∧ ¬ Circular exRejected ∧ reorder exRejected = none := by
  refine ⟨⟨by simp [exRejected, SMap.Sorted]; decide, by decide⟩, by unfold Plain; decide, ?_, by decide +kernel⟩
  have hu : ∀ i j, Uses exRejected i j → i = 1 ∧ j = 2 := by
    rintro i j ⟨hne, x, f, y, g, hi, hj, n, hm, hc, hk⟩
    match i, hi with
    | 0, hi =>
      cases hi
      simp [group, tokName] at hm
      subst hm
      rw [show toKey .identities (nm 'X') = nm 'X' from by decide] at hk
      subst hk
      match j, hj with
      | 0, hj => cases hj
      | 1, hj => cases hj
      | 2, hj => cases hj
    | 1, hi =>
      cases hi
      simp [group, tokName] at hm
      subst hm
      rw [show toKey .identities (nm 'C') = nm 'C' from by decide] at hk
      subst hk
      match j, hj with
      | 0, hj => cases hj
      | 1, hj => cases hj
      | 2, hj => exact ⟨rfl, rfl⟩
    | 2, hi =>
      cases hi
      simp [group, tokName] at hm
      subst hm
      rw [show toKey .identities (nm 'X') = nm 'X' from by decide] at hk
      subst hk
      match j, hj with
      | 0, hj => cases hj
      | 1, hj => cases hj
      | 2, hj => cases hj
  rintro ⟨i, hi⟩
  have : ∀ {a b}, Relation.TransGen (Uses exRejected) a b → a = 1 ∧ b = 2 := by
    intro a b hab
    induction hab with
    | single h1 => exact hu _ _ h1
    | tail _ h1 ih => have := hu _ _ h1; omega
  have := this hi
  omega

end Iode.Idt
