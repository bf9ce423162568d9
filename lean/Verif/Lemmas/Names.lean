import Verif.Model.Names
import Verif.Lemmas.Text

/-! Facts about name normalisation. -/
namespace Iode

theorem toNat_toUpperC (c : Char) :
    (toUpperC c).toNat = if 97 ≤ c.toNat ∧ c.toNat ≤ 122 then c.toNat - 32 else c.toNat := by
  unfold toUpperC
  split
  · rw [toNat_ofNat_small (by omega)]
  · rfl

theorem toNat_toLowerC (c : Char) :
    (toLowerC c).toNat = if 65 ≤ c.toNat ∧ c.toNat ≤ 90 then c.toNat + 32 else c.toNat := by
  unfold toLowerC
  split
  · rw [toNat_ofNat_small (by omega)]
  · rfl

theorem isTrimC_iff (c : Char) : isTrimC c = true ↔ (c.toNat = 32 ∨ (9 ≤ c.toNat ∧ c.toNat ≤ 13)) := by
  simp [isTrimC]

theorem isTrimC_toUpperC (c : Char) : isTrimC (toUpperC c) = isTrimC c := by
  rw [Bool.eq_iff_iff, isTrimC_iff, isTrimC_iff, toNat_toUpperC]
  split <;> omega

theorem isTrimC_toLowerC (c : Char) : isTrimC (toLowerC c) = isTrimC c := by
  rw [Bool.eq_iff_iff, isTrimC_iff, isTrimC_iff, toNat_toLowerC]
  split <;> omega

theorem toLowerC_idem (c : Char) : toLowerC (toLowerC c) = toLowerC c := by
  have h := toNat_toLowerC c
  rw [toLowerC, if_neg]
  rw [h]; split <;> omega

theorem toUpper_idem (s : Name) : toUpper (toUpper s) = toUpper s := by
  simp [toUpper, toUpperC_idem]

theorem toLower_idem (s : Name) : toLower (toLower s) = toLower s := by
  simp [toLower, toLowerC_idem]

theorem dropWhile_map_of {f : Char → Char} {p : Char → Bool} (hf : ∀ c, p (f c) = p c) (s : Name) :
    (s.map f).dropWhile p = (s.dropWhile p).map f := by
  induction s with
  | nil => rfl
  | cons c cs ih =>
    simp only [List.map_cons, List.dropWhile_cons, hf]
    split
    · exact ih
    · rfl

theorem trim_map_of {f : Char → Char} (hf : ∀ c, isTrimC (f c) = isTrimC c) (s : Name) :
    trim (s.map f) = (trim s).map f := by
  unfold trim
  rw [dropWhile_map_of hf, ← List.map_reverse, dropWhile_map_of hf, ← List.map_reverse]

theorem dropWhile_idem (p : Char → Bool) (s : Name) : (s.dropWhile p).dropWhile p = s.dropWhile p := by
  induction s with
  | nil => rfl
  | cons c cs ih =>
    simp only [List.dropWhile_cons]
    split
    · exact ih
    · rename_i h; simp [h]

theorem dropWhile_eq_self_iff' (p : Char → Bool) (s : Name) :
    s.dropWhile p = s ↔ ∀ c cs, s = c :: cs → p c = false := by
  cases s with
  | nil => simp
  | cons c cs =>
    simp only [List.dropWhile_cons]
    split
    · rename_i h
      constructor
      · intro he
        have := congrArg List.length he
        have h2 : (cs.dropWhile p).length ≤ cs.length := (List.dropWhile_suffix p).length_le
        simp at this; omega
      · intro hh
        have := hh c cs rfl
        simp [h] at this
    · rename_i h
      simp only [true_iff]
      intro c' cs' he
      cases he
      simpa using h

theorem trim_idem (s : Name) : trim (trim s) = trim s := by
  -- t = s without leading blanks; r = t without trailing blanks, still without leading blanks
  have key : ∀ t : Name, (∀ c cs, t = c :: cs → isTrimC c = false) →
      ((t.reverse.dropWhile isTrimC).reverse).dropWhile isTrimC = (t.reverse.dropWhile isTrimC).reverse := by
    intro t ht
    rw [dropWhile_eq_self_iff']
    intro c cs he
    -- the reverse of a suffix of the reverse is a prefix of t
    obtain ⟨u, hu⟩ := List.dropWhile_suffix (l := t.reverse) isTrimC
    have h2 : t = (t.reverse.dropWhile isTrimC).reverse ++ u.reverse := by
      have := congrArg List.reverse hu
      simpa using this.symm
    rw [he] at h2
    exact ht c (cs ++ u.reverse) (by simpa using h2)
  unfold trim
  rw [key (s.dropWhile isTrimC) ((dropWhile_eq_self_iff' _ _).1 (dropWhile_idem _ _)),
    List.reverse_reverse, dropWhile_idem]

theorem toKey_idem (ty : ObjType) (s : Name) : toKey ty (toKey ty s) = toKey ty s := by
  unfold toKey
  cases ty.mode with
  | asis => exact trim_idem s
  | upper =>
    simp only
    unfold toUpper
    rw [trim_map_of isTrimC_toUpperC, trim_idem]
    exact toUpper_idem _
  | lower =>
    simp only
    unfold toLower
    rw [trim_map_of isTrimC_toLowerC, trim_idem]
    exact toLower_idem _

theorem trim_eq_self {s : Name} (h : ∀ c ∈ s, isTrimC c = false) : trim s = s := by
  unfold trim
  have h1 : s.dropWhile isTrimC = s := by
    rw [dropWhile_eq_self_iff']; intro c cs he; exact h c (by rw [he]; simp)
  rw [h1]
  have h2 : s.reverse.dropWhile isTrimC = s.reverse := by
    rw [dropWhile_eq_self_iff']; intro c cs he
    exact h c (List.mem_reverse.1 (by rw [he]; simp))
  rw [h2, List.reverse_reverse]

/-- A valid name is made of characters of the second class. -/
theorem checkName_chars {ty : ObjType} {s : Name} (h : checkName ty s = true) :
    s ≠ [] ∧ s.length ≤ 20 ∧ ∀ c ∈ s, nameTailOk ty c = true := by
  cases s with
  | nil => simp [checkName] at h
  | cons c cs =>
    simp only [checkName, Bool.and_eq_true, decide_eq_true_eq, List.all_eq_true] at h
    refine ⟨by simp, h.1.1.1, ?_⟩
    intro d hd
    rcases List.mem_cons.1 hd with rfl | hd
    · have := h.1.1.2
      unfold nameHeadOk at this
      unfold nameTailOk
      simp only [Bool.or_eq_true] at *
      rcases this with h1 | h1
      · exact Or.inl (Or.inl (Or.inl h1))
      · exact Or.inl (Or.inr h1)
    · exact h.1.2 d hd

theorem nameTailOk_cases {ty : ObjType} {c : Char} (h : nameTailOk ty c = true) :
    (isLetterFor ty c = true) ∨ (48 ≤ c.toNat ∧ c.toNat ≤ 57) ∨ c.toNat = 95 ∨ c.toNat = 35 := by
  unfold nameTailOk at h
  simp only [Bool.or_eq_true, beq_iff_eq, isDigitC, Bool.and_eq_true, decide_eq_true_eq] at h
  rcases h with ((h | h) | h) | h
  · exact Or.inl h
  · exact Or.inr (Or.inl h)
  · subst h; exact Or.inr (Or.inr (Or.inl rfl))
  · subst h; exact Or.inr (Or.inr (Or.inr rfl))

theorem nameTailOk_facts {ty : ObjType} {c : Char} (h : nameTailOk ty c = true) :
    isTrimC c = false ∧ (ty.mode = .upper → toUpperC c = c) ∧ (ty.mode = .lower → toLowerC c = c) := by
  have hc := nameTailOk_cases h
  have htrim : (∃ (_ : 35 ≤ c.toNat), True) := by
    rcases hc with h1 | h1 | h1 | h1
    · refine ⟨?_, trivial⟩
      cases ty <;> simp [isLetterFor, isUpperC, isLowerC] at h1 <;> omega
    · exact ⟨by omega, trivial⟩
    · exact ⟨by omega, trivial⟩
    · exact ⟨by omega, trivial⟩
  obtain ⟨h35, -⟩ := htrim
  refine ⟨?_, ?_, ?_⟩
  · cases hh : isTrimC c
    · rfl
    · rw [isTrimC_iff] at hh; omega
  · intro hm
    unfold toUpperC
    rw [if_neg]
    rcases hc with h1 | h1 | h1 | h1
    · cases ty <;> simp [ObjType.mode] at hm <;> simp [isLetterFor, isUpperC] at h1 <;> omega
    all_goals omega
  · intro hm
    unfold toLowerC
    rw [if_neg]
    rcases hc with h1 | h1 | h1 | h1
    · cases ty <;> simp [ObjType.mode] at hm <;> simp [isLetterFor, isLowerC] at h1 <;> omega
    all_goals omega

/-- Normalising a valid name does nothing. -/
theorem toKey_of_checkName {ty : ObjType} {s : Name} (h : checkName ty s = true) : toKey ty s = s := by
  obtain ⟨-, -, hc⟩ := checkName_chars h
  have ht : trim s = s := trim_eq_self (fun c hcs => (nameTailOk_facts (hc c hcs)).1)
  unfold toKey
  split
  · rename_i hm
    rw [ht]; unfold toUpper
    conv => rhs; rw [← List.map_id s]
    exact List.map_congr_left (fun c hcs => (nameTailOk_facts (hc c hcs)).2.1 hm)
  · rename_i hm
    rw [ht]; unfold toLower
    conv => rhs; rw [← List.map_id s]
    exact List.map_congr_left (fun c hcs => (nameTailOk_facts (hc c hcs)).2.2 hm)
  · exact ht

end Iode
