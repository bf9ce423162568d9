import Verif.Lemmas.KdbVal

/-!
# C09  A deep copy is independent of its origin

Specification: content of the copy right after it was taken; then, for every later history made of calls on the copy only
(or, more generally, on databases that are not of the origin's family), every database that existed before shows the same
content under every name; and the other way round.
-/
namespace Iode
open World

namespace World
variable {T : Type}

theorem deepCopy_fail {ty : ObjType} (hty : ty ≠ .comments) {i j : Nat} (ks : List Name) {w : World T}
    (h : Apart ty w i j) (hks : ∀ k ∈ ks, toKey ty k = k) (hn : ¬ ∀ k ∈ ks, k ∈ (w.dbs j).objs.keys) :
    (w.deepCopy ty i j ks).2 = .err := by
  induction ks generalizing w with
  | nil => exact absurd (by simp) hn
  | cons k0 ks ih =>
    unfold deepCopy
    split
    · rename_i hc
      rw [contains_key hty _ (hks k0 (by simp)), SMap.has_iff_mem] at hc
      obtain ⟨v, hv⟩ := val_isSome.2 ((SMap.has_iff_mem _ _).2 hc)
      obtain ⟨c1, c2, -⟩ := copy_val hty h hv
      generalize w.copyObjFrom ty i j k0 k0 = p at *
      obtain ⟨w2, r⟩ := p
      simp only at c1 c2
      subst c1
      simp only
      refine ih c2.apart (fun k hk => hks k (by simp [hk])) ?_
      rw [c2.db]
      intro hall; apply hn
      intro k hk
      rcases List.mem_cons.1 hk with e | e
      · rw [e]; exact hc
      · exact hall k e
    · rfl

theorem copy_facts {ty : ObjType} (hty : ty ≠ .comments) {w : World T} (hg : w.Good ty) {i : Nat} (hi : i < w.nDbs)
    {names : Option (List Name)} (hok : (w.step ty (.subset i names true)).2 = .ok true) :
    ∃ t ks, w.topOf i = some t ∧ filterNames ty (w.dbs i) names = some ks ∧
      let w' := (w.step ty (.subset i names true)).1
      w'.nDbs = w.nDbs + 1 ∧ (w'.dbs w.nDbs).kind ≠ .subset ∧
      (∀ x, x < w.nDbs → w'.dbs x = w.dbs x ∧ w'.look ty x = w.look ty x) ∧
      (∀ k, (w'.val w.nDbs k) = if k ∈ ks then w.val t k else none) := by
  have hnd := fun x hx => run_frame (ty := ty) [.subset i names true] hg.wf (j := x) hx
  simp only [World.step, Op.valid, hi, decide_true, Bool.true_eq_false, if_false] at hok ⊢
  unfold getSubset at hok ⊢
  cases hf : filterNames ty (w.dbs i) names with
  | none => rw [hf] at hok; cases hok
  | some ks =>
    have ht := topOf_eq hg.wf i
    rw [hf] at hok
    simp only [ht] at hok ⊢
    simp only [if_true] at hok ⊢
    refine ⟨w.rootOf i, ks, rfl, rfl, ?_⟩
    have hpc : Prim ty ⟨false, false⟩ w i (w.create .standalone).1 := Prim.create (w := w) false
    have hg1 : (w.create .standalone).1.Good ty := hg.steps hty (Steps.one (S := (· = i)) rfl hpc)
    have hcn : (w.create .standalone).2 = w.nDbs := rfl
    have hn1 : (w.create .standalone).1.nDbs = w.nDbs + 1 := rfl
    have hd1 := create_dbs w .standalone
    have hrl := rootOf_lt hg.wf hi
    have hkn : ((w.create .standalone).1.dbs w.nDbs).kind ≠ .subset := by
      rw [hd1, if_pos rfl]; simp [Db.empty]
    have hroot : ∀ x, x < w.nDbs → (w.create .standalone).1.rootOf x = w.rootOf x := by
      intro x hx; unfold rootOf; rw [hd1, if_neg (by omega)]
    have hap : ∀ x, x < w.nDbs → Apart ty (w.create .standalone).1 w.nDbs x := by
      intro x hx
      refine ⟨hg1, by rw [hn1]; omega, by rw [hn1]; omega, hkn, ?_⟩
      rw [rootOf_of_ne hkn, hroot x hx]
      have := rootOf_lt hg.wf hx; omega
    have hksn : ∀ k ∈ ks, toKey ty k = k := fun k hk =>
      toKey_of_checkName (hg.keys i k (filterNames_mem hf k hk))
    have hsub : ∀ k ∈ ks, k ∈ ((w.create .standalone).1.dbs (w.rootOf i)).objs.keys := by
      apply Decidable.byContradiction
      intro hn
      have hfail := deepCopy_fail hty ks (hap _ hrl) hksn hn
      simp only [hcn] at hok
      generalize (w.create .standalone).1.deepCopy ty w.nDbs (w.rootOf i) ks = p at *
      obtain ⟨w2, r⟩ := p
      simp only at hfail; subst hfail; simp at hok
    obtain ⟨d1, d2, d3⟩ := deepCopy_val hty ks (hap _ hrl) hsub
    have hsteps : ∀ x, x < w.nDbs → ((w.create .standalone).1.deepCopy ty w.nDbs (w.rootOf i) ks).1.dbs x = w.dbs x ∧
        ((w.create .standalone).1.deepCopy ty w.nDbs (w.rootOf i) ks).1.look ty x = w.look ty x := by
      intro x hx
      have hh := deepCopy_steps ty (fl := ⟨false, false⟩) (w := (w.create .standalone).1) (i := w.nDbs) (by rw [hn1]; omega) (w.rootOf i) ks
      obtain ⟨f1, f2, -⟩ := hh.frame hg1.wf (hap x hx).hj (by rintro y rfl; exact (hap x hx).ne)
      have e : (w.create .standalone).1.dbs x = w.dbs x := by rw [hd1, if_neg (by omega)]
      refine ⟨f1.trans e, ?_⟩
      rw [look_frame f1 f2]
      exact look_frame e (fun _ _ _ => rfl)
    simp only [hcn]
    generalize (w.create .standalone).1.deepCopy ty w.nDbs (w.rootOf i) ks = p at *
    obtain ⟨w2, r⟩ := p
    simp only at d1 d2 d3 hsteps; subst d1
    simp only
    refine ⟨d2.n, d2.apart.top, hsteps, ?_⟩
    intro k
    rw [d3]
    have e1 : (w.create .standalone).1.val (w.rootOf i) k = w.val (w.rootOf i) k := by
      unfold val; rw [hd1, if_neg (by omega)]; rfl
    have e2 : (w.create .standalone).1.val w.nDbs k = none := by
      unfold val; rw [hd1, if_pos rfl]; rfl
    rw [e1, e2]

end World

/-- The names asked for: all (`"*"`), or those of a list. -/
def Asked (ty : ObjType) (names : Option (List Name)) (x : Name) : Prop :=
  match names with
  | none => True
  | some l => ∃ y ∈ l, toKey ty x = toKey ty y

/-- Right after it was taken from a top-level workspace, a deep copy shows the objects of the names asked for, and
    nothing else; no other database changed. -/
theorem C09_copy_content_partial {T : Type} [Inhabited T] (ty : ObjType) (hty : ty ≠ .comments) (before : List (Op T)) (i : Nat)
    (names : Option (List Name)) (hi : i < ((World.init : World T).run ty before).nDbs)
    (hk : (((World.init : World T).run ty before).dbs i).kind ≠ .subset)
    (hok : (((World.init : World T).run ty before).step ty (.subset i names true)).2 = .ok true) :
    let w := (World.init : World T).run ty before
    let w' := (w.step ty (.subset i names true)).1
    (∀ x, Asked ty names x → w'.look ty w.nDbs x = w.look ty i x) ∧
    (∀ x, ¬ Asked ty names x → w'.look ty w.nDbs x = none) ∧
    (∀ j, j < w.nDbs → w'.look ty j = w.look ty j) := by
  have hg := (good_init (T := T) ty).run hty before
  simp only
  generalize (World.init : World T).run ty before = w at *
  have hg' := hg.step hty (.subset i names true)
  obtain ⟨t, ks, ht, hks, hn, hkd, hold, hnew⟩ := copy_facts hty hg hi hok
  rw [topOf_self hk] at ht; cases ht
  have hmem : ∀ x, w.val i (toKey ty x) ≠ none → (toKey ty x ∈ ks ↔ Asked ty names x) := by
    intro x hx
    have hh : (w.dbs i).objs.has (toKey ty x) = true := by
      cases h : (w.dbs i).objs.has (toKey ty x) with
      | true => rfl
      | false => exact absurd (val_none.2 h) hx
    unfold filterNames at hks
    cases names with
    | none =>
      simp only [Option.some.injEq] at hks; subst hks
      simp only [Asked, iff_true]
      rw [← SMap.has_iff_mem]; exact hh
    | some l =>
      simp only at hks
      split at hks
      · cases hks
      · simp only [Option.some.injEq] at hks; subst hks
        simp only [Asked, List.mem_filter, List.mem_map, decide_eq_true_eq, getKey_of_ne hty]
        constructor
        · rintro ⟨⟨y, hy, e⟩, hne⟩
          split at e
          · exact ⟨y, hy, e.symm⟩
          · exact absurd e.symm (by simpa using hne)
        · rintro ⟨y, hy, e⟩
          refine ⟨⟨y, hy, by rw [← e, if_pos hh]⟩, ?_⟩
          have hc := hg.keys i _ ((SMap.has_iff_mem _ _).1 hh)
          have : toKey ty x ≠ [] := by
            intro e; rw [e] at hc; simp [checkName] at hc
          simpa using this
  refine ⟨?_, ?_, fun j hj => (hold j hj).2⟩
  · intro x ha
    rw [look_eq hty hg'.keys, hnew, look_eq hty hg.keys]
    split
    · rfl
    · rename_i h
      cases hv : w.val i (toKey ty x) with
      | none => rfl
      | some v => exact absurd ((hmem x (by rw [hv]; simp)).2 ha) h
  · intro x ha
    rw [look_eq hty hg'.keys, hnew]
    split
    · rename_i h
      cases hv : w.val i (toKey ty x) with
      | none => rfl
      | some v => exact absurd ((hmem x (by rw [hv]; simp)).1 h) ha
    · rfl

/-- C09, first half. No later sequence of calls on the copy changes any database that existed before the copy. -/
theorem C09_origin_unchanged_partial {T : Type} [Inhabited T] (ty : ObjType) (hty : ty ≠ .comments) (before : List (Op T)) (i : Nat)
    (names : Option (List Name)) (hi : i < ((World.init : World T).run ty before).nDbs)
    (hok : (((World.init : World T).run ty before).step ty (.subset i names true)).2 = .ok true)
    (later : List (Op T))
    (hl : ∀ op ∈ later, ∀ x ∈ op.acts, x = ((World.init : World T).run ty before).nDbs) (j : Nat)
    (hj : j < ((World.init : World T).run ty before).nDbs) :
    let w := (World.init : World T).run ty before
    ((w.step ty (.subset i names true)).1.run ty later).look ty j = w.look ty j := by
  have hg := (good_init (T := T) ty).run hty before
  simp only
  generalize (World.init : World T).run ty before = w at *
  have hg' := hg.step hty (.subset i names true)
  obtain ⟨t, ks, ht, hks, hn, hkd, hold, hnew⟩ := copy_facts hty hg hi hok
  have hne : (w.step ty (.subset i names true)).1.rootOf w.nDbs ≠ (w.step ty (.subset i names true)).1.rootOf j := by
    rw [rootOf_of_ne hkd]
    have : (w.step ty (.subset i names true)).1.rootOf j = w.rootOf j := by unfold rootOf; rw [(hold j hj).1]
    rw [this]
    have := rootOf_lt hg.wf hj; omega
  obtain ⟨f1, f2⟩ := run_frame later hg'.wf (j := j) (by rw [hn]; omega)
    (leaves_of later hg'.wf (by rw [hn]; omega) (· = w.nDbs) (by rintro x rfl; exact hne) hl)
  rw [look_frame f1 f2, (hold j hj).2]

/-- C09, second half. No later sequence of calls on the databases that existed before changes the copy. -/
theorem C09_copy_unchanged_partial {T : Type} [Inhabited T] (ty : ObjType) (hty : ty ≠ .comments) (before : List (Op T)) (i : Nat)
    (names : Option (List Name)) (hi : i < ((World.init : World T).run ty before).nDbs)
    (hok : (((World.init : World T).run ty before).step ty (.subset i names true)).2 = .ok true)
    (later : List (Op T))
    (hl : ∀ op ∈ later, ∀ x ∈ op.acts, x < ((World.init : World T).run ty before).nDbs) :
    let w := (World.init : World T).run ty before
    let w' := (w.step ty (.subset i names true)).1
    (w'.run ty later).look ty w.nDbs = w'.look ty w.nDbs := by
  have hg := (good_init (T := T) ty).run hty before
  simp only
  generalize (World.init : World T).run ty before = w at *
  have hg' := hg.step hty (.subset i names true)
  obtain ⟨t, ks, ht, hks, hn, hkd, hold, hnew⟩ := copy_facts hty hg hi hok
  have hne : ∀ x, x < w.nDbs →
      (w.step ty (.subset i names true)).1.rootOf x ≠ (w.step ty (.subset i names true)).1.rootOf w.nDbs := by
    intro x hx
    rw [rootOf_of_ne hkd]
    have : (w.step ty (.subset i names true)).1.rootOf x = w.rootOf x := by unfold rootOf; rw [(hold x hx).1]
    rw [this]
    have := rootOf_lt hg.wf hx; omega
  obtain ⟨f1, f2⟩ := run_frame later hg'.wf (j := w.nDbs) (by rw [hn]; omega)
    (leaves_of later hg'.wf (by rw [hn]; omega) (· < w.nDbs) hne hl)
  exact look_frame f1 f2

/-- The general law behind both halves: in any reachable world a history that is never called on a member of the family
    of `j` (its top-level workspace and its subsets) is not seen in `j`. It holds for all object types. -/
theorem C09_families_independent {T : Type} [Inhabited T] (ty : ObjType) (before later : List (Op T)) (j : Nat)
    (hj : j < ((World.init : World T).run ty before).nDbs)
    (hl : Leaves ty j ((World.init : World T).run ty before) later) :
    let w := (World.init : World T).run ty before
    (w.run ty later).look ty j = w.look ty j := by
  have hw := run_wf ty (WF_init (T := T)) before
  simp only
  obtain ⟨f1, f2⟩ := run_frame later hw hj hl
  exact look_frame f1 f2

/-! Concrete case: copy, then changes on both sides. -/
def copyHistory : List (Op Nat) := [.create true, .set 0 "A".toList 1, .set 0 "B".toList 2]
example : ((World.init : World Nat).run .variables copyHistory).nDbs = 1 ∧
    (((World.init : World Nat).run .variables copyHistory).step .variables (.subset 0 none true)).2 = .ok true := by decide
example : let w := (((World.init : World Nat).run .variables copyHistory).step .variables (.subset 0 none true)).1
    (w.run .variables [.modify 1 "A".toList 7, .remove 1 "B".toList]).look .variables 0 "A".toList = some 1 ∧
    (w.run .variables [.modify 1 "A".toList 7, .remove 1 "B".toList]).look .variables 1 "A".toList = some 7 ∧
    (w.run .variables [.modify 0 "A".toList 7, .clear 0]).look .variables 1 "A".toList = some 1 := by decide

/-- A shallow subset is not independent (the reason for asking a copy). -/
theorem C09_shallow_counterexample :
    let w := (((World.init : World Nat).run .variables copyHistory).step .variables (.subset 0 none false)).1
    (w.run .variables [.modify 1 "A".toList 7]).look .variables 0 "A".toList = some 7 := by decide

end Iode
