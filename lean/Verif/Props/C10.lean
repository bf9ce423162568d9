import Verif.Lemmas.KdbVal

/-!
# C10  An overwriting merge keeps every other name and takes the source's objects

Specification: the content of the target after `merge`, name by name, from the contents of target and source before.
-/
namespace Iode
open World

/-- What a name shows after merging a source into a target. -/
def mergedAt {T : Type} (overwrite : Bool) (target source : Option T) : Option T :=
  match source, target with
  | none, t => t
  | some v, none => some v
  | some v, some t => if overwrite then some v else some t

/-- C10. In every reachable world, merging a workspace `j` into a top-level workspace `i` of another family succeeds and
    has the specified effect on every name; the source keeps its content, or is empty when `clear_source` was asked.
    Missing for the full claim: comments, targets that are subsets, and a source that is a subset of the target (or the
    target itself), for which it is false (see below). -/
theorem C10_merge_partial {T : Type} [Inhabited T] (ty : ObjType) (hty : ty ≠ .comments) (before : List (Op T)) (i j : Nat)
    (ow cs : Bool)
    (hi : i < ((World.init : World T).run ty before).nDbs) (hj : j < ((World.init : World T).run ty before).nDbs)
    (hk : (((World.init : World T).run ty before).dbs i).kind ≠ .subset)
    (hne : ((World.init : World T).run ty before).topOf j ≠ some i) :
    let w := (World.init : World T).run ty before
    let w' := (w.step ty (.merge i j ow cs)).1
    (w.step ty (.merge i j ow cs)).2 = .ok true ∧
    (∀ x, w'.look ty i x = mergedAt ow (w.look ty i x) (w.look ty j x)) ∧
    (∀ x, w'.look ty j x = if cs = true ∧ (w.dbs j).objs ≠ [] then none else w.look ty j x) := by
  have hg := (good_init (T := T) ty).run hty before
  simp only
  generalize (World.init : World T).run ty before = w at *
  have hap : Apart ty w i j := by
    refine ⟨hg, hi, hj, hk, ?_⟩
    rw [rootOf_of_ne hk]
    intro e; apply hne; rw [topOf_eq hg.wf, ← e]
  have hg' := hg.step hty (.merge i j ow cs)
  have hkeys' := hg'.keys
  simp only [World.step, Op.valid, hi, hj, decide_true, Bool.and_self, Bool.true_eq_false, if_false] at hkeys' ⊢
  by_cases he : (w.dbs j).objs = []
  · have hm : w.merge ty i j ow cs = (w, .ok true) := by unfold World.merge; rw [if_pos he]
    rw [hm]
    refine ⟨rfl, ?_, ?_⟩
    · intro x
      have : w.look ty j x = none := by rw [look_eq hty hg.keys, val_none, he]; rfl
      rw [this]; rfl
    · intro x; rw [if_neg]; exact fun h => h.2 he
  · obtain ⟨h1, h2, h3⟩ := mergeLoop_val hty ow (w.dbs j).objs.keys hap (fun k hk => hk)
    have hpt : ∀ x, (w.mergeLoop ty i j ow (w.dbs j).objs.keys).1.val i (toKey ty x) =
        mergedAt ow (w.look ty i x) (w.look ty j x) := by
      intro x
      rw [h3, look_eq hty hg.keys, look_eq hty hg.keys]
      cases hvj : w.val j (toKey ty x) with
      | none =>
        rw [if_neg]
        · rfl
        · rw [val_none] at hvj
          rw [← SMap.has_iff_mem, hvj]; simp
      | some v =>
        have hmem : toKey ty x ∈ (w.dbs j).objs.keys := by
          rw [← SMap.has_iff_mem]; exact val_isSome.1 ⟨v, hvj⟩
        cases hvi : w.val i (toKey ty x) with
        | none => simp [hmem, mergedAt]
        | some t => cases ow <;> simp [hmem, mergedAt]
    have hm : w.merge ty i j ow cs = if cs then (w.mergeLoop ty i j ow (w.dbs j).objs.keys).1.clear j
        else ((w.mergeLoop ty i j ow (w.dbs j).objs.keys).1, .ok true) := by
      unfold World.merge
      rw [if_neg he]
      generalize w.mergeLoop ty i j ow (w.dbs j).objs.keys = p at *
      obtain ⟨w1, r⟩ := p
      simp only at h1; subst h1; rfl
    rw [hm] at hkeys' ⊢
    generalize (w.mergeLoop ty i j ow (w.dbs j).objs.keys).1 = w1 at *
    cases cs with
    | false =>
      simp only [Bool.false_eq_true, if_false] at hkeys' ⊢
      refine ⟨trivial, ?_, ?_⟩
      · intro x; rw [look_eq hty hkeys', hpt]
      · intro x; simp only [false_and, if_false]; rw [look_eq hty hkeys', h2.val, look_eq hty hg.keys]
    | true =>
      simp only [if_true] at hkeys' ⊢
      have hp : Prim ty ⟨true, true⟩ w1 j (w1.clear j).1 := Prim.clear h2.apart.hj (fun h => by cases h)
      obtain ⟨f1, f2, -⟩ := hp.frame h2.apart.good.wf h2.apart.hi h2.apart.ne.symm
      refine ⟨by unfold World.clear; split <;> rfl, ?_, ?_⟩
      · intro x; rw [look_eq hty hkeys', val_of_frame f1 f2, hpt]
      · intro x
        have hd := clear_dbs h2.apart.good.wf j j
        have : ((w1.clear j).1.dbs j).objs = [] := by rw [hd]; split <;> simp
        rw [if_pos ⟨trivial, he⟩, look_eq hty hkeys', val_none, this]; rfl

/-- Merging a subset into its own parent with overwriting fails and loses the object: the removal of the old object
    also removes it from the source. -/
theorem C10_own_subset_counterexample :
    let w := (World.init : World Nat).run .variables
      [.create true, .set 0 "A".toList 1, .set 0 "B".toList 2, .subset 0 (some ["A".toList, "B".toList]) false]
    (w.step .variables (.merge 0 1 true false)).2 = .err ∧
    (w.step .variables (.merge 0 1 true false)).1.look .variables 0 "A".toList = none ∧
    w.look .variables 0 "A".toList = some 1 := by decide

/-- A name taken over by an overwriting merge leaves the subsets of the target. -/
theorem C10_subset_of_target_counterexample :
    let w := (World.init : World Nat).run .variables
      [.create true, .set 0 "A".toList 1, .subset 0 (some ["A".toList]) false, .create false, .set 2 "A".toList 5]
    (w.step .variables (.merge 0 2 true false)).1.look .variables 0 "A".toList = some 5 ∧
    w.look .variables 1 "A".toList = some 1 ∧
    (w.step .variables (.merge 0 2 true false)).1.look .variables 1 "A".toList = none := by decide

/-! A concrete case meeting the hypotheses. -/
example :
    let w := (World.init : World Nat).run .variables
      [.create true, .set 0 "A".toList 1, .create false, .set 1 "a".toList 5, .set 1 "B".toList 6]
    0 < w.nDbs ∧ 1 < w.nDbs ∧ (w.dbs 0).kind ≠ .subset ∧ w.topOf 1 ≠ some 0 ∧
    (w.step .variables (.merge 0 1 false true)).1.look .variables 0 "A".toList = some 1 ∧
    (w.step .variables (.merge 0 1 true true)).1.look .variables 0 "A".toList = some 5 := by decide

end Iode
