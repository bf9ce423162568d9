import Verif.Lemmas.Kdb

/-!
# C08  Only valid names are ever stored

Specification: what a valid name is, written with character intervals.
Binary files are read by `binary_to_obj`, which does not check names; loading is not an operation of this
history (see C17, C18 for files).
-/
namespace Iode
open World

/-- Letters allowed in the names of a type: capitals, lower case for scalars, both for comments and macros. -/
def LetterOf (ty : ObjType) (c : Char) : Prop :=
  match ty with
  | .comments | .objects => ('A' ≤ c ∧ c ≤ 'Z') ∨ ('a' ≤ c ∧ c ≤ 'z')
  | .scalars => 'a' ≤ c ∧ c ≤ 'z'
  | _ => 'A' ≤ c ∧ c ≤ 'Z'

/-- A valid name: 1 to 20 characters, starting with a letter or `_`, followed by letters, digits, `_` or `#`. -/
structure ValidName (ty : ObjType) (s : Name) : Prop where
  nonempty : s ≠ []
  short : s.length ≤ 20
  first : ∀ c, s.head? = some c → LetterOf ty c ∨ c = '_'
  rest : ∀ c ∈ s.tail, LetterOf ty c ∨ ('0' ≤ c ∧ c ≤ '9') ∨ c = '_' ∨ c = '#'

theorem char_le_iff (a b : Char) : a ≤ b ↔ a.toNat ≤ b.toNat := by
  show a.val ≤ b.val ↔ _
  exact UInt32.le_iff_toNat_le

theorem isLetterFor_iff (ty : ObjType) (c : Char) : isLetterFor ty c = true ↔ LetterOf ty c := by
  cases ty <;> simp [isLetterFor, LetterOf, isUpperC, isLowerC, char_le_iff]

/-- The test the code runs is exactly the specification. -/
theorem C08_check_iff_valid (ty : ObjType) (s : Name) : checkName ty s = true ↔ ValidName ty s := by
  cases s with
  | nil =>
    constructor
    · intro h; simp [checkName] at h
    · intro h; exact absurd rfl h.nonempty
  | cons c cs =>
    simp only [checkName, Bool.and_eq_true, decide_eq_true_eq, List.all_eq_true, nameHeadOk, nameTailOk,
      Bool.or_eq_true, isLetterFor_iff, beq_iff_eq, isDigitC]
    constructor
    · rintro ⟨⟨⟨h1, h2⟩, h3⟩, -⟩
      refine ⟨by simp, h1, ?_, ?_⟩
      · intro d hd; simp at hd; subst hd; exact h2
      · intro d hd
        rcases h3 d hd with ((h | h) | h) | h
        · exact Or.inl h
        · exact Or.inr (Or.inl (by rw [char_le_iff, char_le_iff]; exact h))
        · exact Or.inr (Or.inr (Or.inl h))
        · exact Or.inr (Or.inr (Or.inr h))
    · intro h
      refine ⟨⟨⟨h.short, h.first c rfl⟩, ?_⟩, ?_⟩
      · intro d hd
        rcases h.rest d hd with h1 | h1 | h1 | h1
        · exact Or.inl (Or.inl (Or.inl h1))
        · rw [char_le_iff, char_le_iff] at h1
          exact Or.inl (Or.inl (Or.inr h1))
        · exact Or.inl (Or.inr h1)
        · exact Or.inr h1
      · have := h.short
        simp only [List.length_cons] at this
        omega

namespace World
variable {T : Type}

/-- Every key of every database passes the name check. -/
def KeysOk (ty : ObjType) (w : World T) : Prop := ∀ i k, k ∈ (w.dbs i).objs.keys → checkName ty k = true

theorem Prim.keysOk {ty : ObjType} {fl : Flags} {w w' : World T} {i : Nat} (hw : w.WF) (h : w.KeysOk ty) (hp : Prim ty fl w i w') :
    w'.KeysOk ty := by
  cases hp with
  | alloc v => exact h
  | @put top key v hi ht hk =>
    intro j k hj
    rw [allocPut_dbs ty w i top key v ht j] at hj
    split at hj
    · simp only [putObj, SMap.mem_insert_keys] at hj
      rcases hj with rfl | hj
      · exact hk
      · exact h j k hj
    · exact h j k hj
  | @remove top key hi ht hk =>
    intro j k hj
    rw [removeCore_dbs w i top key j] at hj
    split at hj
    · simp only [SMap.mem_erase_keys] at hj
      exact h j k hj.2
    · exact h j k hj
  | @rename top okey nkey a hi ht hk ho ha hc how =>
    intro j k hj
    have hnt : top ∉ w.childrenOf i := by rw [← topOf_some ht]; exact root_not_mem_children hw i
    rw [renameCore_dbs ty w i top okey nkey a hnt j] at hj
    split at hj
    · simp only [SMap.mem_insert_keys, SMap.mem_erase_keys] at hj
      rcases hj with rfl | hj
      · exact hk
      · exact h j k hj.2
    · exact h j k hj
  | clear hi hcl =>
    intro j k hj
    rw [clear_dbs hw i j] at hj
    repeat' split at hj
    all_goals first | exact h j k hj | (simp [SMap.keys] at hj)
  | write v ha => exact h
  | create g =>
    intro j k hj
    rw [create_dbs] at hj
    split at hj
    · simp [Db.empty, SMap.keys] at hj
    · exact h j k hj
  | @shallow top ks m hi ht hks hm =>
    intro j k hj
    have htl : top < w.nDbs := by rw [← topOf_some ht]; exact rootOf_lt hw hi
    rw [shallowCore_dbs m htl j] at hj
    split at hj
    · simp only at hj
      obtain ⟨a, ha⟩ := (SMap.mem_keys_iff k m).1 hj
      rcases shallowObjs_find hm k a ha with h1 | h1
      · simp at h1
      · exact h i k (hks k h1.1)
    · split at hj <;> exact h j k hj

theorem Steps.keysOk {ty : ObjType} {fl : Flags} {S : Nat → Prop} {w w' : World T} (hw : w.WF) (h : w.KeysOk ty)
    (hs : Steps ty fl S w w') : w'.KeysOk ty := by
  induction hs with
  | refl => exact h
  | tail hs _ hp ih => exact hp.keysOk (hs.wf hw) ih

theorem run_keysOk (ty : ObjType) {w : World T} (hw : w.WF) (h : w.KeysOk ty) (ops : List (Op T)) :
    (w.run ty ops).KeysOk ty := by
  induction ops generalizing w with
  | nil => exact h
  | cons op ops ih => exact ih (step_wf ty hw op) ((step_steps ty w op).keysOk hw h)

theorem keysOk_init [Inhabited T] (ty : ObjType) : (init : World T).KeysOk ty := by
  intro i k hk; simp [init, Db.empty, SMap.keys] at hk

end World

/-- After any history of calls, every name of every database is valid. -/
theorem C08_names_valid {T : Type} [Inhabited T] (ty : ObjType) (ops : List (Op T)) (i : Nat) (name : Name)
    (h : name ∈ (((World.init : World T).run ty ops).dbs i).objs.keys) : ValidName ty name :=
  (C08_check_iff_valid ty name).1 (run_keysOk ty WF_init (keysOk_init ty) ops i name h)

/-- Giving an invalid name (after trimming and change of case) is an error and changes no database. -/
theorem C08_invalid_rejected {T : Type} (ty : ObjType) (w : World T) (i : Nat) (name : Name) (v : T)
    (h : ¬ ValidName ty (toKey ty name)) :
    (w.set ty i name v).2 = .err ∧ (w.set ty i name v).1.dbs = w.dbs ∧
    (w.add ty i name v).2 = .err ∧ (w.add ty i name v).1.dbs = w.dbs := by
  have hk : checkName ty (toKey ty name) = false := by
    cases hh : checkName ty (toKey ty name)
    · rfl
    · exact absurd ((C08_check_iff_valid ty _).1 hh) h
  refine ⟨?_, ?_, ?_, ?_⟩
  · simp only [World.set, setObjPtr, hk, if_true]; split <;> rfl
  · simp only [World.set, setObjPtr, hk, if_true]; split <;> rfl
  · simp only [World.add, hk, if_true]; split <;> rfl
  · simp only [World.add, hk, if_true]; split <;> rfl

/-! Concrete cases: a name is normalised and stored; names that are too long or badly formed are refused. -/
example : ((World.init.run .variables [.create true, .set 0 " ac_1 ".toList 5]).dbs 0).objs.keys = ["AC_1".toList] := by
  decide
example : ¬ ValidName .variables "1AB".toList := by
  rw [← C08_check_iff_valid]; decide
example : ¬ ValidName .scalars "abcdefghijklmnopqrstu".toList := by
  rw [← C08_check_iff_valid]; decide

end Iode
