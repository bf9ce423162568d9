import Verif.Lemmas.KdbVal

/-!
# C07  Removing or renaming a name makes the old name disappear

Specification: the answer of the call and what `contains` answers afterwards, in the workspace itself, in its parent
and in every registered subset of the family.
-/
namespace Iode
open World

/-- Workspaces linked to `i`: its top-level workspace and the subsets registered there. -/
def World.InFamily {T : Type} (w : World T) (i j : Nat) : Prop :=
  ∃ t, w.topOf i = some t ∧ (j = t ∨ j ∈ (w.dbs t).children)

theorem World.contains_spec {ty : ObjType} (hty : ty ≠ .comments) (d : Db) (n : Name) :
    d.contains ty n = true ↔ ∃ a, d.objs.find (toKey ty n) = some a := by
  rw [contains_of_ne hty, SMap.has_iff]

/-- A removal that answers `true` removes the name from the whole family. -/
theorem C07_remove_partial {T : Type} [Inhabited T] (ty : ObjType) (hty : ty ≠ .comments) (before : List (Op T)) (i : Nat) (name : Name)
    (hok : (((World.init : World T).run ty before).remove ty i name).2 = .ok true) (j : Nat)
    (hj : ((World.init : World T).run ty before).InFamily i j) :
    ((((World.init : World T).run ty before).remove ty i name).1.dbs j).contains ty name = false := by
  have hw := run_wf ty (WF_init (T := T)) before
  generalize (World.init : World T).run ty before = w at *
  obtain ⟨t, ht, hj⟩ := hj
  unfold remove at hok ⊢
  simp only [ht] at hok ⊢
  split at hok
  · rename_i hc
    rw [if_pos hc, contains_of_ne hty]
    show SMap.has _ ((w.removeCore i t (toKey ty name)).dbs j).objs = false
    rw [removeCore_dbs, if_pos]
    · simp [SMap.has_erase]
    · rw [childrenOf_eq hw, topOf_some ht]; exact hj
  · cases hok

/-- A rename that answers `true` makes the old name disappear from the whole family, unless both names are the same. -/
theorem C07_rename_partial {T : Type} [Inhabited T] (ty : ObjType) (hty : ty ≠ .comments) (before : List (Op T)) (i : Nat)
    (old new : Name) (ow : Bool)
    (hok : (((World.init : World T).run ty before).rename ty i old new ow).2 = .ok true)
    (hne : toKey ty old ≠ toKey ty new) (j : Nat) (hj : ((World.init : World T).run ty before).InFamily i j) :
    ((((World.init : World T).run ty before).rename ty i old new ow).1.dbs j).contains ty old = false := by
  have hw := run_wf ty (WF_init (T := T)) before
  generalize (World.init : World T).run ty before = w at *
  obtain ⟨t, ht, hj⟩ := hj
  have hnt : t ∉ w.childrenOf i := by rw [← topOf_some ht]; exact root_not_mem_children hw i
  have hch : w.childrenOf i = (w.dbs t).children := by rw [childrenOf_eq hw, topOf_some ht]
  -- the only way to answer true is the last branch
  have hb : ∃ a, (w.rename ty i old new ow).1 = w.renameCore ty i t (toKey ty old) (toKey ty new) a := by
    unfold World.rename at hok ⊢
    simp only [ht] at hok ⊢
    split at hok
    · cases hok
    · rename_i h1; rw [if_neg h1]
      split at hok
      · cases hok
      · rename_i h2; rw [if_neg h2]
        split at hok
        · cases hok
        · rename_i h3; rw [if_neg h3]
          split at hok
          · cases hok
          · rename_i h4; rw [if_neg h4]
            split at hok
            · cases hok
            · rename_i h5; rw [if_neg h5]
              split at hok
              · cases hok
              · rename_i a ha; exact ⟨a, rfl⟩
  obtain ⟨a, ha⟩ := hb
  rw [ha, contains_of_ne hty, renameCore_dbs ty w i t _ _ a hnt, hch]
  split
  · simp only [SMap.has_insert, SMap.has_erase]
    simp [hne]
  · rename_i h
    rcases hj with hj | hj
    · exact absurd (Or.inl hj) h
    · cases hh : (w.dbs j).objs.has (toKey ty old) with
      | false => rfl
      | true =>
        refine absurd (Or.inr ⟨hj, ?_⟩) h
        rw [contains_of_ne hty, toKey_idem, hh]

/-- In particular the workspace itself no longer contains the name, when it is top-level or a registered subset. -/
theorem C07_remove_self_partial {T : Type} [Inhabited T] (ty : ObjType) (hty : ty ≠ .comments) (before : List (Op T)) (i : Nat) (name : Name)
    (hok : (((World.init : World T).run ty before).remove ty i name).2 = .ok true)
    (hreg : (((World.init : World T).run ty before).dbs i).kind ≠ .subset ∨
      ∃ t, i ∈ (((World.init : World T).run ty before).dbs t).children) :
    ((((World.init : World T).run ty before).remove ty i name).1.dbs i).contains ty name = false := by
  refine C07_remove_partial ty hty before i name hok i ?_
  have hw := run_wf ty (WF_init (T := T)) before
  rcases hreg with h | ⟨t, h⟩
  · exact ⟨i, topOf_self h, Or.inl rfl⟩
  · obtain ⟨h1, h2, h3⟩ := hw.kids _ _ h
    exact ⟨t, by unfold topOf; rw [h2]; exact h3, Or.inr h⟩

/-! ## The excluded cases break the claim -/

/-- Comments: a removal with another spelling answers true and removes nothing; a rename leaves the old name. -/
theorem C07_comments_counterexample :
    let w := (World.init : World Nat).run .comments [.create true, .set 0 "Note".toList 1]
    (w.remove .comments 0 "NOTE".toList).2 = .ok true ∧
    ((w.remove .comments 0 "NOTE".toList).1.dbs 0).contains .comments "NOTE".toList = true ∧
    (w.rename .comments 0 "NOTE".toList "other".toList false).2 = .ok true ∧
    ((w.rename .comments 0 "NOTE".toList "other".toList false).1.dbs 0).contains .comments "NOTE".toList = true := by
  decide

/-- A subset that was cleared and filled again: removing through it answers true, the name stays in the subset. -/
theorem C07_cleared_subset_counterexample :
    let w := (World.init : World Nat).run .variables
      [.create true, .set 0 "A".toList 1, .subset 0 (some ["A".toList]) false, .clear 1, .set 1 "A".toList 5]
    (w.remove .variables 1 "A".toList).2 = .ok true ∧
    ((w.remove .variables 1 "A".toList).1.dbs 1).contains .variables "A".toList = true := by
  decide

/-! Concrete cases meeting the hypotheses: removal and renaming through a subset, seen in the parent. -/
example :
    let w := (World.init : World Nat).run .variables
      [.create true, .set 0 "A".toList 1, .set 0 "B".toList 2, .subset 0 (some ["A".toList]) false]
    (w.remove .variables 1 "a".toList).2 = .ok true ∧ (w.rename .variables 1 "A".toList "C".toList false).2 = .ok true ∧
    ((w.remove .variables 1 "a".toList).1.dbs 0).contains .variables "A".toList = false ∧
    1 ∈ (w.dbs 0).children := by decide

end Iode
