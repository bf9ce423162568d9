import Verif.Model.SimOrder
import Mathlib.Data.List.Nodup
import Mathlib.Data.List.Perm.Basic
import Mathlib.Data.List.Perm.Subperm

/-!
# Facts about the ordering of models
-/
namespace Iode.Sim

/-- `pl'` is `pl` followed by new equations, each placed when its list was satisfied by those before it. -/
inductive Grows (lists : List (List (Option Nat))) : List Nat → List Nat → Prop where
  | refl (pl) : Grows lists pl pl
  | snoc {pl pl' i} : Grows lists pl pl' → i < lists.length → i ∉ pl' → ready pl' (lists.getD i []) = true →
      Grows lists pl (pl' ++ [i])

theorem Grows.trans {lists} {a b c : List Nat} (h1 : Grows lists a b) (h2 : Grows lists b c) : Grows lists a c := by
  induction h2 with
  | refl => exact h1
  | snoc _ h3 h4 h5 ih => exact .snoc ih h3 h4 h5

theorem Grows.prefix {lists} {a b : List Nat} (h : Grows lists a b) : a <+: b := by
  induction h with
  | refl => exact List.prefix_refl _
  | snoc _ _ _ _ ih => exact ih.trans (List.prefix_append _ _)

theorem Grows.nodup {lists} {a b : List Nat} (h : Grows lists a b) (ha : a.Nodup) : b.Nodup := by
  induction h with
  | refl => exact ha
  | snoc _ _ h3 _ ih =>
    rw [List.nodup_append]
    refine ⟨ih, List.nodup_singleton _, ?_⟩
    intro x hx y hy
    rw [List.mem_singleton] at hy
    rintro rfl
    exact h3 (hy ▸ hx)

theorem Grows.bound {lists} {a b : List Nat} (h : Grows lists a b) (ha : ∀ i ∈ a, i < lists.length) :
    ∀ i ∈ b, i < lists.length := by
  induction h with
  | refl => exact ha
  | snoc _ h2 _ _ ih =>
    intro j hj
    rcases List.mem_append.1 hj with hj | hj
    · exact ih j hj
    · rw [List.mem_singleton.1 hj]; exact h2

/-- An equation of the new part only needs equations placed before it. -/
theorem Grows.before {lists} {a b : List Nat} (h : Grows lists a b) {k i : Nat} (hk : a.length ≤ k) (hi : b[k]? = some i) :
    ready (b.take k) (lists.getD i []) = true := by
  induction h with
  | refl =>
    rw [List.getElem?_eq_none hk] at hi
    cases hi
  | @snoc pl' i' h1 _ _ h4 ih =>
    by_cases hlt : k < pl'.length
    · rw [List.getElem?_append_left hlt] at hi
      rw [List.take_append_of_le_length (Nat.le_of_lt hlt)]
      exact ih hi
    · by_cases heq : k = pl'.length
      · subst heq
        simp only [List.getElem?_append_right (Nat.le_refl _), Nat.sub_self, List.getElem?_cons_zero,
          Option.some.injEq] at hi
        subst hi
        simpa using h4
      · rw [List.getElem?_eq_none (by simp only [List.length_append, List.length_singleton]; omega)] at hi
        cases hi

theorem foldl_grows (lists : List (List (Option Nat))) :
    ∀ (is : List Nat), (∀ i ∈ is, i < lists.length) → ∀ pl,
      Grows lists pl (is.foldl
        (fun pl i => if i ∈ pl then pl else if ready pl (lists.getD i []) then pl ++ [i] else pl) pl) := by
  intro is
  induction is with
  | nil => intro _ pl; exact .refl pl
  | cons i is ih =>
    intro h pl
    rw [List.foldl_cons]
    have h' : ∀ i ∈ is, i < lists.length := fun j hj => h j (List.mem_cons_of_mem _ hj)
    split
    · exact ih h' pl
    · next hn =>
      split
      · next hr => exact (Grows.snoc (.refl pl) (h i (List.mem_cons_self ..)) hn hr).trans (ih h' _)
      · exact ih h' pl

theorem buildPass_grows (lists : List (List (Option Nat))) (pl : List Nat) : Grows lists pl (buildPass lists pl) :=
  foldl_grows lists _ (fun _ hi => List.mem_range.1 hi) pl

theorem buildLoop_grows (lists : List (List (Option Nat))) : ∀ fuel pl, Grows lists pl (buildLoop lists fuel pl) := by
  intro fuel
  induction fuel with
  | zero => intro pl; exact .refl pl
  | succ n ih =>
    intro pl
    simp only [buildLoop]
    split
    · exact buildPass_grows lists pl
    · exact (buildPass_grows lists pl).trans (ih _)

theorem buildList_grows (lists : List (List (Option Nat))) (pl : List Nat) : Grows lists pl (buildList lists pl) :=
  buildLoop_grows lists _ pl

theorem Grows.eq_of_length {lists} {a b : List Nat} (h : Grows lists a b) (hl : b.length = a.length) : b = a :=
  (List.IsPrefix.eq_of_length h.prefix hl.symm).symm

theorem nodup_length_le {n : Nat} {l : List Nat} (hd : l.Nodup) (hb : ∀ i ∈ l, i < n) : l.length ≤ n := by
  have := (List.subperm_of_subset hd (fun i hi => List.mem_range.2 (hb i hi))).length_le
  simpa using this

/-- The loop ends because nothing can be added any more, not because the fuel is used up. -/
theorem buildLoop_fixed (lists : List (List (Option Nat))) : ∀ fuel pl, pl.Nodup → (∀ i ∈ pl, i < lists.length) →
    lists.length < fuel + pl.length → buildPass lists (buildLoop lists fuel pl) = buildLoop lists fuel pl := by
  intro fuel
  induction fuel with
  | zero =>
    intro pl hd hb hf
    have := nodup_length_le hd hb
    omega
  | succ n ih =>
    intro pl hd hb hf
    have hg := buildPass_grows lists pl
    simp only [buildLoop]
    split
    · next hl => rw [hg.eq_of_length hl, hg.eq_of_length hl]
    · next hl =>
      refine ih _ (hg.nodup hd) (hg.bound hb) ?_
      have := hg.prefix.length_le
      omega

/-- No equation can be added to the result. -/
theorem foldl_fixed (lists : List (List (Option Nat))) :
    ∀ (is : List Nat), (∀ i ∈ is, i < lists.length) → ∀ pl,
      is.foldl (fun pl i => if i ∈ pl then pl else if ready pl (lists.getD i []) then pl ++ [i] else pl) pl = pl →
      ∀ i ∈ is, i ∈ pl ∨ ready pl (lists.getD i []) = false := by
  intro is
  induction is with
  | nil => intro _ pl _ i hi; cases hi
  | cons i is ih =>
    intro hb pl h
    rw [List.foldl_cons] at h
    have hb' : ∀ i ∈ is, i < lists.length := fun j hj => hb j (List.mem_cons_of_mem _ hj)
    split at h
    · next hm =>
      intro j hj
      rcases List.mem_cons.1 hj with rfl | hj
      · exact Or.inl hm
      · exact ih hb' pl h j hj
    · next hm =>
      split at h
      · exfalso
        have hl := (foldl_grows lists is hb' (pl ++ [i])).prefix.length_le
        rw [h] at hl
        simp only [List.length_append, List.length_singleton] at hl
        omega
      · next hr =>
        intro j hj
        rcases List.mem_cons.1 hj with rfl | hj
        · exact Or.inr (by simpa using hr)
        · exact ih hb' pl h j hj

theorem buildList_maximal (lists : List (List (Option Nat))) (pl : List Nat) (hd : pl.Nodup)
    (hb : ∀ i ∈ pl, i < lists.length) {i : Nat} (hi : i < lists.length) :
    i ∈ buildList lists pl ∨ ready (buildList lists pl) (lists.getD i []) = false :=
  foldl_fixed lists (List.range lists.length) (fun _ hj => List.mem_range.1 hj) _
    (buildLoop_fixed lists _ pl hd hb (by omega)) i (List.mem_range.2 hi)

/-! ## The triangulation -/

/-- `perm` numbers the equations of the block, and them alone, without repetition. -/
structure Numbering (inter : List Nat) (perm : Nat → Int) : Prop where
  out : ∀ i, i ∉ inter → perm i = -1
  low : ∀ i ∈ inter, 0 ≤ perm i
  high : ∀ i ∈ inter, perm i < inter.length
  inj : ∀ i ∈ inter, ∀ j ∈ inter, perm i = perm j → i = j

theorem permInit_mem {inter : List Nat} {i : Nat} (h : i ∈ inter) :
    ∃ k, ∃ hk : k < inter.length, permInit inter i = (k : Int) ∧ inter[k] = i := by
  unfold permInit
  cases hf : inter.findIdx? (· = i) with
  | none =>
    rw [List.findIdx?_eq_none_iff] at hf
    have := hf i h
    simp at this
  | some k =>
    obtain ⟨hk, h1, _⟩ := List.findIdx?_eq_some_iff_getElem.1 hf
    exact ⟨k, hk, rfl, by simpa using h1⟩

theorem permInit_numbering (inter : List Nat) : Numbering inter (permInit inter) where
  out i hi := by
    unfold permInit
    have : inter.findIdx? (· = i) = none := by
      rw [List.findIdx?_eq_none_iff]
      intro x hx
      have : x ≠ i := fun h => hi (h ▸ hx)
      simpa using this
    rw [this]
  low i hi := by
    obtain ⟨k, _, h, _⟩ := permInit_mem hi
    omega
  high i hi := by
    obtain ⟨k, hk, h, _⟩ := permInit_mem hi
    omega
  inj i hi j hj h := by
    obtain ⟨k, hk, h1, h2⟩ := permInit_mem hi
    obtain ⟨l, hl, h3, h4⟩ := permInit_mem hj
    have : k = l := by omega
    subst this
    rw [← h2, ← h4]

theorem permMax_lt {perm : Nat → Int} {n : Int} (hp : ∀ i, perm i < n) (hn : -1 < n) (vars : List (Option Nat)) :
    permMax perm vars < n := by
  unfold permMax
  generalize (-1 : Int) = m at hn
  induction vars generalizing m with
  | nil => exact hn
  | cons o vars ih =>
    rw [List.foldl_cons]
    cases o with
    | none => exact ih m hn
    | some j =>
      apply ih
      simp only
      split
      · exact hp j
      · exact hn

theorem permStep_numbering (lists : List (List (Option Nat))) {inter : List Nat} {perm : Nat → Int} (h : Numbering inter perm)
    {i : Nat} (hi : i ∈ inter) : Numbering inter (permStep lists perm i) := by
  have hpos : 0 < inter.length := List.length_pos_of_mem hi
  have hlt : ∀ j, perm j < inter.length := by
    intro j
    by_cases hj : j ∈ inter
    · exact h.high j hj
    · rw [h.out j hj]; omega
  have hm := permMax_lt hlt (by omega) (lists.getD i [])
  unfold permStep
  simp only
  generalize permMax perm (lists.getD i []) = m at hm
  split
  · exact h
  · next hge =>
    have h0 := h.low i hi
    refine ⟨?_, ?_, ?_, ?_⟩
    · intro j hj
      have hne : j ≠ i := fun e => hj (e ▸ hi)
      have := h.out j hj
      simp only [hne, if_false]
      rw [if_neg (by omega)]
      exact this
    · intro j hj
      have := h.low j hj
      show 0 ≤ (if j = i then m else if perm i < perm j ∧ perm j ≤ m then perm j - 1 else perm j)
      split
      · omega
      · split <;> omega
    · intro j hj
      have := h.high j hj
      show (if j = i then m else if perm i < perm j ∧ perm j ≤ m then perm j - 1 else perm j) < _
      split
      · omega
      · split <;> omega
    · intro j hj k hk he
      have hjk := h.inj j hj k hk
      have hij := h.inj i hi j hj
      have hik := h.inj i hi k hk
      by_cases e1 : j = i
      · by_cases e2 : k = i
        · rw [e1, e2]
        · rw [if_pos e1, if_neg e2] at he
          exfalso
          have : perm i ≠ perm k := fun e => e2 (hik e).symm
          split at he <;> omega
      · by_cases e2 : k = i
        · rw [if_neg e1, if_pos e2] at he
          exfalso
          have : perm i ≠ perm j := fun e => e1 (hij e).symm
          split at he <;> omega
        · rw [if_neg e1, if_neg e2] at he
          have h1 : perm i ≠ perm j := fun e => e1 (hij e).symm
          have h2 : perm i ≠ perm k := fun e => e2 (hik e).symm
          apply hjk
          split at he <;> split at he <;> omega

theorem foldl_numbering (lists : List (List (Option Nat))) {inter : List Nat} :
    ∀ (is : List Nat), (∀ i ∈ is, i ∈ inter) → ∀ perm, Numbering inter perm →
      Numbering inter (is.foldl (permStep lists) perm) := by
  intro is
  induction is with
  | nil => intro _ perm h; exact h
  | cons i is ih =>
    intro hs perm h
    exact ih (fun j hj => hs j (List.mem_cons_of_mem _ hj)) _
      (permStep_numbering lists h (hs i (List.mem_cons_self ..)))

theorem permPasses_numbering (lists : List (List (Option Nat))) (inter : List Nat) (passes : Nat) :
    Numbering inter (permPasses lists inter passes) := by
  unfold permPasses
  have : ∀ (ps : List Nat) perm, Numbering inter perm →
      Numbering inter (ps.foldl (fun p _ => inter.foldl (permStep lists) p) perm) := by
    intro ps
    induction ps with
    | nil => intro perm h; exact h
    | cons p ps ih => intro perm h; exact ih _ (foldl_numbering lists inter (fun _ h => h) perm h)
  exact this _ _ (permInit_numbering inter)

theorem permEnd_length (perm : Nat → Int) : ∀ (is : List Nat) (ord : List Nat),
    (is.foldl (fun ord i => if 0 ≤ perm i then ord.set (perm i).toNat i else ord) ord).length = ord.length := by
  intro is
  induction is with
  | nil => intro _; rfl
  | cons i is ih =>
    intro ord
    rw [List.foldl_cons, ih]
    split <;> simp

/-- A place keeps its content if no equation of the list has this number. -/
theorem permEnd_keeps (perm : Nat → Int) (k : Nat) : ∀ (is : List Nat) (ord : List Nat), (∀ i ∈ is, perm i ≠ k) →
    (is.foldl (fun ord i => if 0 ≤ perm i then ord.set (perm i).toNat i else ord) ord)[k]? = ord[k]? := by
  intro is
  induction is with
  | nil => intro _ _; rfl
  | cons i is ih =>
    intro ord h
    rw [List.foldl_cons, ih _ (fun j hj => h j (List.mem_cons_of_mem _ hj))]
    split
    · next h0 =>
      have := h i (List.mem_cons_self ..)
      rw [List.getElem?_set_ne (by omega)]
    · rfl

theorem permEnd_at {inter : List Nat} {perm : Nat → Int} (h : Numbering inter perm) {i : Nat} (hi : i ∈ inter) :
    ∀ (is : List Nat) (ord : List Nat), i ∈ is → is.Nodup → ord.length = inter.length →
    (is.foldl (fun ord i => if 0 ≤ perm i then ord.set (perm i).toNat i else ord) ord)[(perm i).toNat]? = some i := by
  intro is
  induction is with
  | nil => intro _ h; cases h
  | cons j is ih =>
    intro ord hm hd hl
    have h0 := h.low i hi
    have h1 := h.high i hi
    rw [List.nodup_cons] at hd
    rw [List.foldl_cons]
    by_cases e : j = i
    · subst e
      rw [if_pos h0, permEnd_keeps perm]
      · rw [List.getElem?_set_self]
        omega
      · intro k hk he
        have : perm k = perm j := by omega
        by_cases hki : k ∈ inter
        · exact hd.1 ((h.inj k hki j hi this) ▸ hk)
        · have := h.out k hki; omega
    · refine ih _ ?_ hd.2 ?_
      · rcases List.mem_cons.1 hm with rfl | hm
        · exact absurd rfl e
        · exact hm
      · split <;> simp [hl]

/-- The triangulated block has the same equations. -/
theorem permEnd_perm {inter : List Nat} {perm : Nat → Int} (h : Numbering inter perm) (hd : inter.Nodup) {nb : Nat}
    (hb : ∀ i ∈ inter, i < nb) : (permEnd nb perm inter).Perm inter := by
  have hlen : (permEnd nb perm inter).length = inter.length := permEnd_length perm _ _
  have hsub : inter ⊆ permEnd nb perm inter := by
    intro i hi
    have := permEnd_at h hi (List.range nb) inter (List.mem_range.2 (hb i hi)) List.nodup_range rfl
    exact List.mem_of_getElem? this
  exact ((List.subperm_of_subset hd hsub).perm_of_length_le (by omega)).symm

end Iode.Sim
