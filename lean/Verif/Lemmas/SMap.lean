import Verif.Model.SMap

/-! Laws of the sorted association list. -/
namespace Iode.SMap
variable {V : Type u}

@[simp] theorem find_nil (k : List Char) : find k ([] : SMap V) = none := rfl

@[simp] theorem find_insert_self (k : List Char) (v : V) (m : SMap V) : find k (insert k v m) = some v := by
  induction m with
  | nil => simp [insert, find]
  | cons e l ih =>
    obtain ⟨k', v'⟩ := e
    unfold insert
    split
    · simp [find]
    · split
      · simp [find]
      · rename_i h _
        simp [find, h, ih]

theorem find_insert_ne {k k2 : List Char} (v : V) (m : SMap V) (h : k2 ≠ k) :
    find k2 (insert k v m) = find k2 m := by
  induction m with
  | nil => simp [insert, find, h]
  | cons e l ih =>
    obtain ⟨k', v'⟩ := e
    unfold insert
    split
    · rename_i hk; subst hk; simp [find, h]
    · split
      · simp [find, h]
      · simp only [find]; rw [ih]

theorem find_insert (k k2 : List Char) (v : V) (m : SMap V) :
    find k2 (insert k v m) = if k2 = k then some v else find k2 m := by
  split
  · rename_i h; subst h; simp
  · rename_i h; exact find_insert_ne v m h

theorem find_erase (k k2 : List Char) (m : SMap V) :
    find k2 (erase k m) = if k2 = k then none else find k2 m := by
  induction m with
  | nil => simp [erase]
  | cons e l ih =>
    obtain ⟨k', v'⟩ := e
    unfold erase at *
    by_cases hk : k = k'
    · subst hk
      simp only [decide_true, Bool.not_true, Bool.false_eq_true, not_false_eq_true, List.filter_cons_of_neg, ih, find]
      split
      · rfl
      · rfl
    · simp only [hk, decide_false, Bool.not_false, List.filter_cons_of_pos, find, ih]
      split
      · rename_i h2; subst h2
        rw [if_neg (fun h => hk h.symm)]
      · rfl

theorem mem_keys_iff (k : List Char) (m : SMap V) : k ∈ keys m ↔ ∃ v, find k m = some v := by
  induction m with
  | nil => simp [keys]
  | cons e l ih =>
    obtain ⟨k', v'⟩ := e
    simp only [keys, List.map_cons, List.mem_cons, find] at *
    by_cases hk : k = k'
    · simp [hk]
    · simp [hk, ih]

theorem has_iff (k : List Char) (m : SMap V) : has k m = true ↔ ∃ v, find k m = some v := by
  unfold has; cases find k m <;> simp

theorem has_iff_mem (k : List Char) (m : SMap V) : has k m = true ↔ k ∈ keys m := by
  rw [has_iff, mem_keys_iff]

theorem has_false_iff (k : List Char) (m : SMap V) : has k m = false ↔ find k m = none := by
  unfold has; cases find k m <;> simp

theorem has_insert (k k2 : List Char) (v : V) (m : SMap V) :
    has k2 (insert k v m) = (decide (k2 = k) || has k2 m) := by
  unfold has; rw [find_insert]; split <;> simp [*]

theorem has_erase (k k2 : List Char) (m : SMap V) :
    has k2 (erase k m) = (decide (k2 ≠ k) && has k2 m) := by
  unfold has; rw [find_erase]; split <;> simp [*]

theorem mem_insert_keys (k k2 : List Char) (v : V) (m : SMap V) :
    k2 ∈ keys (insert k v m) ↔ k2 = k ∨ k2 ∈ keys m := by
  rw [← has_iff_mem, has_insert, ← has_iff_mem]; simp

theorem mem_erase_keys (k k2 : List Char) (m : SMap V) :
    k2 ∈ keys (erase k m) ↔ k2 ≠ k ∧ k2 ∈ keys m := by
  rw [← has_iff_mem, has_erase, ← has_iff_mem]; simp

theorem insert_insert (k : List Char) (v : V) (m : SMap V) : insert k v (insert k v m) = insert k v m := by
  induction m with
  | nil => simp [insert]
  | cons e l ih =>
    obtain ⟨k', v'⟩ := e
    by_cases h1 : k = k'
    · subst h1; simp [insert]
    · by_cases h2 : nameLt k k' = true
      · simp [insert, h1, h2]
      · simp [insert, h1, h2, ih]

/-! ## Order -/

theorem nameLt_irrefl (a : List Char) : nameLt a a = false := by
  induction a with
  | nil => rfl
  | cons c cs ih => simp [nameLt, ih]

theorem char_eq_of_toNat {a b : Char} (h : a.toNat = b.toNat) : a = b := by
  have := congrArg Char.ofNat h
  simpa [Char.ofNat_toNat] using this

theorem nameLt_trans {a b c : List Char} (h1 : nameLt a b = true) (h2 : nameLt b c = true) : nameLt a c = true := by
  induction a generalizing b c with
  | nil =>
    cases b with
    | nil => simp [nameLt] at h1
    | cons y ys =>
      cases c with
      | nil => simp [nameLt] at h2
      | cons z zs => simp [nameLt]
  | cons x xs ih =>
    cases b with
    | nil => simp [nameLt] at h1
    | cons y ys =>
      cases c with
      | nil => simp [nameLt] at h2
      | cons z zs =>
        simp only [nameLt] at *
        split at h1
        · split at h2
          · rw [if_pos (by omega)]
          · split at h2
            · cases h2
            · rw [if_pos (by omega)]
        · split at h1
          · cases h1
          · split at h2
            · rw [if_pos (by omega)]
            · split at h2
              · cases h2
              · rw [if_neg (by omega), if_neg (by omega)]
                exact ih h1 h2

theorem nameLt_total {a b : List Char} (hne : a ≠ b) (h : nameLt a b = false) : nameLt b a = true := by
  induction a generalizing b with
  | nil =>
    cases b with
    | nil => exact absurd rfl hne
    | cons y ys => simp [nameLt] at h
  | cons x xs ih =>
    cases b with
    | nil => simp [nameLt]
    | cons y ys =>
      simp only [nameLt] at *
      split at h
      · cases h
      · split at h
        · rename_i h2; simp [h2]
        · have hxy : x = y := char_eq_of_toNat (by omega)
          subst hxy
          simp only [Nat.lt_irrefl, if_false]
          exact ih (fun hh => hne (by rw [hh])) h

/-- Strictly increasing keys. -/
def Sorted : SMap V → Prop
  | [] => True
  | (k, _) :: l => (∀ k' ∈ keys l, nameLt k k' = true) ∧ Sorted l

theorem sorted_insert (k : List Char) (v : V) (m : SMap V) (h : Sorted m) : Sorted (insert k v m) := by
  induction m with
  | nil => simp [insert, Sorted, keys]
  | cons e l ih =>
    obtain ⟨k', v'⟩ := e
    obtain ⟨h1, h2⟩ := h
    unfold insert
    split
    · rename_i hk; subst hk; exact ⟨h1, h2⟩
    · split
      · rename_i hlt
        refine ⟨?_, h1, h2⟩
        intro k2 hk2
        simp only [keys, List.map_cons, List.mem_cons] at hk2
        rcases hk2 with rfl | hk2
        · exact hlt
        · exact nameLt_trans hlt (h1 k2 hk2)
      · rename_i hne hlt
        refine ⟨?_, ih h2⟩
        intro k2 hk2
        rw [mem_insert_keys] at hk2
        rcases hk2 with rfl | hk2
        · exact nameLt_total hne (by simpa using hlt)
        · exact h1 k2 hk2

theorem sorted_erase (k : List Char) (m : SMap V) (h : Sorted m) : Sorted (erase k m) := by
  induction m with
  | nil => simp [erase, Sorted]
  | cons e l ih =>
    obtain ⟨k', v'⟩ := e
    obtain ⟨h1, h2⟩ := h
    by_cases hk : k = k'
    · have : erase k ((k', v') :: l) = erase k l := by simp [erase, hk]
      rw [this]; exact ih h2
    · have : erase k ((k', v') :: l) = (k', v') :: erase k l := by simp [erase, hk]
      rw [this]
      refine ⟨?_, ih h2⟩
      intro k2 hk2
      rw [mem_erase_keys] at hk2
      exact h1 k2 hk2.2

end Iode.SMap
