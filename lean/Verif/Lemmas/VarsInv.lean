import Verif.Lemmas.Overlap
import Verif.Lemmas.KdbVal

/-!
# Invariants of the Variables databases
-/
namespace Iode

namespace SMap
variable {V : Type}

theorem find_of_mem {m : SMap V} (h : Sorted m) {k : List Char} {v : V} (hm : (k, v) ∈ m) : find k m = some v := by
  induction m with
  | nil => cases hm
  | cons e l ih =>
    obtain ⟨k', v'⟩ := e
    obtain ⟨h1, h2⟩ := h
    simp only [find]
    rcases List.mem_cons.1 hm with he | he
    · cases he; simp
    · have hk : k ∈ keys l := List.mem_map.2 ⟨(k, v), he, rfl⟩
      have hlt := h1 k hk
      have hne : k ≠ k' := by
        intro hh; subst hh; rw [nameLt_irrefl] at hlt; cases hlt
      rw [if_neg hne]; exact ih h2 he

theorem mem_of_find {m : SMap V} {k : List Char} {v : V} (h : find k m = some v) : (k, v) ∈ m := by
  induction m with
  | nil => cases h
  | cons e l ih =>
    obtain ⟨k', v'⟩ := e
    simp only [find] at h
    split at h
    · rename_i hk; cases h; subst hk; simp
    · exact List.mem_cons_of_mem _ (ih h)

theorem nodup_values {m : SMap V} (h : Sorted m) (hinj : ∀ k l v, find k m = some v → find l m = some v → k = l) :
    (m.map (·.2)).Nodup := by
  induction m with
  | nil => simp
  | cons e l ih =>
    obtain ⟨k', v'⟩ := e
    have h' := h
    obtain ⟨h1, h2⟩ := h
    have hsub : ∀ k v, find k l = some v → find k ((k', v') :: l) = some v :=
      fun k v hf => find_of_mem h' (List.mem_cons_of_mem _ (mem_of_find hf))
    simp only [List.map_cons, List.nodup_cons]
    constructor
    · intro hm
      obtain ⟨⟨k, v⟩, he, hv⟩ := List.mem_map.1 hm
      simp only at hv
      subst hv
      have := hinj k k' v (hsub k v (find_of_mem h2 he)) (by simp [find])
      subst this
      have hlt := h1 k (List.mem_map.2 ⟨_, he, rfl⟩)
      rw [nameLt_irrefl] at hlt; cases hlt
    · exact ih h2 (fun k l' v a b => hinj k l' v (hsub k v a) (hsub l' v b))

end SMap

namespace World
variable {T : Type}

/-- The entries of every database are sorted by key. -/
def AllSorted (w : World T) : Prop := ∀ i, SMap.Sorted (w.dbs i).objs

theorem shallowObjs_sorted {ty : ObjType} {src : Db} (ks : List Name) {m0 m : SMap Nat}
    (h : shallowObjs ty src ks m0 = some m) (h0 : SMap.Sorted m0) : SMap.Sorted m := by
  induction ks generalizing m0 with
  | nil => simp only [shallowObjs, Option.some.injEq] at h; subst h; exact h0
  | cons k ks ih =>
    simp only [shallowObjs] at h
    split at h
    · split at h
      · cases h
      · exact ih h (SMap.sorted_insert _ _ _ h0)
    · cases h

theorem Prim.sorted {ty : ObjType} {fl : Flags} {w w' : World T} {i : Nat} (hw : w.WF) (h : w.AllSorted)
    (hp : Prim ty fl w i w') : w'.AllSorted := by
  intro j
  cases hp with
  | alloc v => exact h j
  | @put top key v hi ht hk =>
    rw [allocPut_dbs ty w i top key v ht j]
    split
    · exact SMap.sorted_insert _ _ _ (h j)
    · exact h j
  | @remove top key hi ht hk =>
    rw [removeCore_dbs]
    split
    · exact SMap.sorted_erase _ _ (h j)
    · exact h j
  | @rename top okey nkey a hi ht hk ho ha hc how =>
    have hnt : top ∉ w.childrenOf i := by rw [← topOf_some ht]; exact root_not_mem_children hw i
    rw [renameCore_dbs ty w i top okey nkey a hnt j]
    split
    · exact SMap.sorted_insert _ _ _ (SMap.sorted_erase _ _ (h j))
    · exact h j
  | clear hi hcl =>
    rw [clear_dbs hw]
    repeat' split
    all_goals first | exact trivial | exact h j
  | write v ha => exact h j
  | create g =>
    rw [create_dbs]
    split
    · exact trivial
    · exact h j
  | @shallow top ks m hi ht hks hm =>
    have htl : top < w.nDbs := by rw [← topOf_some ht]; exact rootOf_lt hw hi
    rw [shallowCore_dbs m htl]
    split
    · exact shallowObjs_sorted ks hm trivial
    · split <;> exact h j

end World

namespace VWorld
variable {α : Type}
open World

/-- Facts that do not involve the values or the samples. -/
structure Base (w : World (List α)) : Prop where
  good : w.Good ty
  coh : w.Coherent
  reg : w.AllRegistered
  sorted : w.AllSorted

theorem Base.prim {w w' : World (List α)} {i : Nat} (h : Base w) (hp : Prim ty ⟨false, false⟩ w i w') : Base w' :=
  ⟨h.good.steps (by decide) (Steps.one (S := fun _ => True) trivial hp),
   hp.coherent (by decide) rfl h.good.wf h.good.keys h.coh,
   hp.registered rfl h.good.wf h.reg,
   hp.sorted h.good.wf h.sorted⟩

/-- Changing objects in place. -/
theorem Base.heap {w : World (List α)} (h : Base w) (f : Nat → List α) : Base { w with heap := f } :=
  ⟨⟨⟨h.good.wf.blank, h.good.wf.par, h.good.wf.kids, h.good.wf.addr, h.good.wf.sep⟩, h.good.keys, h.good.unshared⟩,
   h.coh, h.reg, h.sorted⟩

theorem Base.init : Base (World.init : World (List α)) :=
  ⟨good_init ty, coherent_init, registered_init, fun _ => trivial⟩

/-- Every variable of every database has as many values as the sample of the database has periods. -/
def LenOk (v : VWorld α) : Prop :=
  ∀ i k a, (v.w.dbs i).objs.find k = some a → ((v.w.heap a).length : Int) = v.nb i

/-- Invariant of the histories without the three operations that break it (see C11). -/
structure Inv (v : VWorld α) : Prop where
  base : Base v.w
  len : LenOk v
  same : ∀ t s, s ∈ (v.w.dbs t).children → v.smp s = v.smp t
  fair : ∀ i s, v.smp i = some s → s.Fair

theorem Inv.root {v : VWorld α} (h : Inv v) (i : Nat) : v.smp i = v.smp (v.w.rootOf i) := by
  by_cases hk : (v.w.dbs i).kind = .subset
  · exact h.same _ _ (h.base.reg i hk)
  · rw [rootOf_of_ne hk]

theorem nb_congr {v : VWorld α} {i j : Nat} (h : v.smp i = v.smp j) : v.nb i = v.nb j := by
  unfold nb; rw [h]

theorem Inv.family {v : VWorld α} (h : Inv v) {i j : Nat} (hr : v.w.rootOf i = v.w.rootOf j) : v.nb i = v.nb j :=
  nb_congr (by rw [h.root i, h.root j, hr])

theorem Inv.init : Inv (VWorld.init : VWorld α) :=
  ⟨Base.init, by intro i k a h; simp [VWorld.init, World.init, Db.empty] at h,
   by intro t s h; simp [VWorld.init, World.init, Db.empty] at h, by intro i s h; cases h⟩

theorem Inv.alloc {v : VWorld α} (h : Inv v) (x : List α) : Inv { v with w := (v.w.alloc x).1 } := by
  refine ⟨h.base.prim (Prim.alloc (i := 0) x), ?_, h.same, h.fair⟩
  intro i k a hf
  have hlt := h.base.good.wf.addr i k a hf
  show ((if a = v.w.nHeap then x else v.w.heap a).length : Int) = v.nb i
  rw [if_neg (by omega)]
  exact h.len i k a hf

theorem Inv.put {v : VWorld α} (h : Inv v) {i top : Nat} {key : Name} {x : List α} (hi : i < v.w.nDbs)
    (ht : v.w.topOf i = some top) (hk : checkName ty key = true) (hlen : (x.length : Int) = v.nb i) :
    Inv { v with w := v.w.allocPut ty i top key x } := by
  have hw := h.base.good.wf
  have hr := topOf_some ht
  refine ⟨h.base.prim (Prim.put x hi ht hk), ?_, ?_, h.fair⟩
  · intro j k a hf
    have hf' : ((v.w.allocPut ty i top key x).dbs j).objs.find k = some a := hf
    show (((v.w.allocPut ty i top key x).heap a).length : Int) = v.nb j
    rw [allocPut_heap]
    rw [allocPut_dbs ty v.w i top key x ht j] at hf'
    split at hf'
    · rename_i hj
      rw [put_find] at hf'
      have hroot : v.w.rootOf j = v.w.rootOf i := by
        rcases hj with hj | hj | hj
        · rw [hj]
        · rw [hj, ← hr, rootOf_rootOf hw]
        · exact (mem_childrenOf hw hj.1).2.2
      split at hf'
      · cases hf'; rw [if_pos rfl, hlen]; exact h.family hroot.symm
      · have := hw.addr j k a hf'
        rw [if_neg (by omega)]; exact h.len j k a hf'
    · have := hw.addr j k a hf'
      rw [if_neg (by omega)]; exact h.len j k a hf'
  · intro t s hs
    have hs' : s ∈ ((v.w.allocPut ty i top key x).dbs t).children := hs
    rw [allocPut_dbs ty v.w i top key x ht t] at hs'
    refine h.same t s ?_
    split at hs' <;> exact hs'

theorem Inv.setObjPtr {v : VWorld α} (h : Inv v) {i : Nat} (hi : i < v.w.nDbs) (name : Name) (a : Nat) :
    Inv (v.setObjPtr i name a).1 ∧ (v.setObjPtr i name a).1.w.nDbs = v.w.nDbs ∧ (v.setObjPtr i name a).1.smp = v.smp := by
  unfold VWorld.setObjPtr
  split
  · rename_i hs
    unfold withW World.setObjPtr
    simp only
    repeat' split
    all_goals first
      | exact ⟨h, rfl, trivial⟩
      | skip
    rename_i hne hk _ top ht hx
    exact ⟨h.put (x := v.w.heap a) hi ht (by simpa using hk) (by simpa [sizeOk] using hs), allocPut_nDbs _ _ _ _ _ _, trivial⟩
  · exact ⟨h, rfl, rfl⟩

theorem Inv.set {v : VWorld α} (h : Inv v) {i : Nat} (hi : i < v.w.nDbs) (name : Name) (x : List α) :
    Inv (v.set i name x).1 ∧ (v.set i name x).1.w.nDbs = v.w.nDbs ∧ (v.set i name x).1.smp = v.smp := by
  unfold VWorld.set
  exact (h.alloc x).setObjPtr (v := { v with w := (v.w.alloc x).1 }) hi name _

theorem Inv.remove {v : VWorld α} (h : Inv v) {i : Nat} (hi : i < v.w.nDbs) (name : Name) :
    Inv (v.remove i name).1 ∧ (v.remove i name).1.w.nDbs = v.w.nDbs ∧ (v.remove i name).1.smp = v.smp := by
  unfold VWorld.remove withW World.remove
  simp only
  split
  · exact ⟨h, rfl, trivial⟩
  · rename_i top ht
    split
    · refine ⟨⟨h.base.prim (Prim.remove (key := toKey ty name) hi ht (toKey_idem ty name)), ?_, ?_, h.fair⟩, rfl, trivial⟩
      · intro j k a hf
        have hf' : ((v.w.removeCore i top (toKey ty name)).dbs j).objs.find k = some a := hf
        rw [removeCore_dbs] at hf'
        split at hf'
        · rw [SMap.find_erase] at hf'
          split at hf'
          · cases hf'
          · exact h.len j k a hf'
        · exact h.len j k a hf'
      · intro t s hs
        have hs' : s ∈ ((v.w.removeCore i top (toKey ty name)).dbs t).children := hs
        rw [removeCore_dbs] at hs'
        refine h.same t s ?_
        split at hs' <;> exact hs'
    · exact ⟨h, rfl, trivial⟩

theorem Inv.copyObjFrom {v : VWorld α} (h : Inv v) {i : Nat} (hi : i < v.w.nDbs) (j : Nat) (src dst : Name) :
    Inv (v.copyObjFrom i j src dst).1 ∧ (v.copyObjFrom i j src dst).1.w.nDbs = v.w.nDbs ∧
      (v.copyObjFrom i j src dst).1.smp = v.smp := by
  unfold VWorld.copyObjFrom
  split
  · exact ⟨h, rfl, rfl⟩
  · exact h.setObjPtr hi _ _

theorem Inv.deepCopy {i j : Nat} (ks : List Name) {v : VWorld α} (h : Inv v) (hi : i < v.w.nDbs) :
    Inv (v.deepCopy i j ks).1 ∧ (v.deepCopy i j ks).1.w.nDbs = v.w.nDbs ∧ (v.deepCopy i j ks).1.smp = v.smp := by
  induction ks generalizing v with
  | nil => exact ⟨h, rfl, rfl⟩
  | cons k ks ih =>
    simp only [VWorld.deepCopy]
    split
    · have hc := h.copyObjFrom hi j k k
      generalize v.copyObjFrom i j k k = p at hc ⊢
      obtain ⟨v1, r⟩ := p
      obtain ⟨h1, h2, h3⟩ := hc
      simp only at h1 h2 h3
      cases r with
      | ok b =>
        have := ih h1 (by rw [h2]; exact hi)
        exact ⟨this.1, this.2.1.trans h2, this.2.2.trans h3⟩
      | err => exact ⟨h1, h2, h3⟩
      | ub => exact ⟨h1, h2, h3⟩
    · exact ⟨h, rfl, rfl⟩

theorem Inv.mergeLoop {i j : Nat} (ow : Bool) (ks : List Name) {v : VWorld α} (h : Inv v) (hi : i < v.w.nDbs) :
    Inv (v.mergeLoop i j ow ks).1 ∧ (v.mergeLoop i j ow ks).1.w.nDbs = v.w.nDbs ∧ (v.mergeLoop i j ow ks).1.smp = v.smp := by
  induction ks generalizing v with
  | nil => exact ⟨h, rfl, rfl⟩
  | cons k ks ih =>
    simp only [VWorld.mergeLoop]
    split
    · split
      · exact ih h hi
      · have h0 : ∀ v1 : VWorld α, (if (v.w.dbs i).contains ty k = true then (v.remove i k).1 else v) = v1 →
            Inv v1 ∧ v1.w.nDbs = v.w.nDbs ∧ v1.smp = v.smp := by
          intro v1 he
          subst he
          split
          · exact h.remove hi k
          · exact ⟨h, rfl, rfl⟩
        generalize (if (v.w.dbs i).contains ty k = true then (v.remove i k).1 else v) = v1 at h0 ⊢
        obtain ⟨g1, g2, g3⟩ := h0 v1 rfl
        have hc := g1.copyObjFrom (by rw [g2]; exact hi) j k k
        generalize v1.copyObjFrom i j k k = p at hc ⊢
        obtain ⟨v2, r⟩ := p
        obtain ⟨h1, h2, h3⟩ := hc
        simp only at h1 h2 h3
        cases r with
        | ok b =>
          have := ih h1 (by rw [h2, g2]; exact hi)
          exact ⟨this.1, this.2.1.trans (h2.trans g2), this.2.2.trans (h3.trans g3)⟩
        | err => exact ⟨h1, h2.trans g2, h3.trans g3⟩
        | ub => exact ⟨h1, h2.trans g2, h3.trans g3⟩
    · exact ih h hi

theorem Inv.clear {v : VWorld α} (h : Inv v) {i : Nat} (hi : i < v.w.nDbs) (hk : (v.w.dbs i).kind ≠ .subset) :
    Inv (v.clear i).1 := by
  have hw := h.base.good.wf
  have hch : v.w.childrenOf i = (v.w.dbs i).children := by rw [childrenOf_eq hw, rootOf_of_ne hk]
  have hd := clear_dbs hw i
  have hb : Base (v.w.clear i).1 := h.base.prim (Prim.clear hi (fun _ => hk))
  refine ⟨hb, ?_, ?_, ?_⟩
  · intro j k a hf
    have hf' : ((v.w.clear i).1.dbs j).objs.find k = some a := hf
    rw [hd j, if_neg hk] at hf'
    split at hf'
    · cases hf'
    · rename_i hji
      split at hf'
      · cases hf'
      · rename_i hjc
        have := h.len j k a hf'
        have hn : (v.clear i).1.smp j = v.smp j := by
          show (if j = i ∨ j ∈ v.w.childrenOf i then none else v.smp j) = v.smp j
          rw [if_neg]; rw [hch]; rintro (h' | h')
          · exact hji h'
          · exact hjc h'
        have hh : (v.clear i).1.w.heap = v.w.heap := by
          show (v.w.clear i).1.heap = v.w.heap
          unfold World.clear; split
          · split <;> rfl
          · rfl
        rw [hh]
        unfold nb at *
        rw [hn]; exact this
  · intro t s hs
    have hs' : s ∈ ((v.w.clear i).1.dbs t).children := hs
    rw [hd t, if_neg hk] at hs'
    have key : ∀ x, ¬ (x = i ∨ x ∈ (v.w.dbs i).children) → (v.clear i).1.smp x = v.smp x := by
      intro x hx
      show (if x = i ∨ x ∈ v.w.childrenOf i then none else v.smp x) = v.smp x
      rw [if_neg]; rw [hch]; exact hx
    split at hs'
    · simp at hs'
    · rename_i hti
      have hs2 : s ∈ (v.w.dbs t).children := by split at hs' <;> exact hs'
      have hts := (hw.kids t s hs2)
      rw [key s, key t]
      · exact h.same t s hs2
      · rintro (h' | h')
        · exact hti h'
        · exact hw.kid_parent_kind hs2 (hw.kids _ _ h').2.1
      · rintro (h' | h')
        · subst h'; exact hk hts.2.1
        · have := (hw.kids _ _ h').2.2
          rw [hts.2.2] at this; cases this; exact hti rfl
  · intro j s hs
    have hs' : (if j = i ∨ j ∈ v.w.childrenOf i then none else v.smp j) = some s := hs
    split at hs'
    · cases hs'
    · exact h.fair j s hs'

theorem Inv.create {v : VWorld α} (h : Inv v) (g : Bool) (o : Option Sample) (ho : ∀ s, o = some s → s.Fair) :
    Inv ⟨(v.w.create (if g then .global else .standalone)).1, fun j => if j = v.w.nDbs then o else v.smp j⟩ := by
  have hw := h.base.good.wf
  refine ⟨h.base.prim (Prim.create (i := 0) g), ?_, ?_, ?_⟩
  · intro j k a hf
    have hf' : ((v.w.create (if g then .global else .standalone)).1.dbs j).objs.find k = some a := hf
    rw [create_dbs] at hf'
    split at hf'
    · simp [Db.empty] at hf'
    · rename_i hj
      have := h.len j k a hf'
      unfold nb at *
      simp only [if_neg hj]
      exact this
  · intro t s hs
    have hs' : s ∈ ((v.w.create (if g then .global else .standalone)).1.dbs t).children := hs
    rw [create_dbs] at hs'
    split at hs'
    · simp [Db.empty] at hs'
    · rename_i ht
      have := (hw.kids t s hs').1
      simp only [if_neg ht, if_neg (show ¬ s = v.w.nDbs by omega)]
      exact h.same t s hs'
  · intro j s hs
    simp only at hs
    split at hs
    · exact ho s hs
    · exact h.fair j s hs

theorem Inv.shallow {v : VWorld α} (h : Inv v) {i top : Nat} {ks : List Name} {m : SMap Nat} (hi : i < v.w.nDbs)
    (ht : v.w.topOf i = some top) (hks : ∀ k ∈ ks, k ∈ (v.w.dbs i).objs.keys)
    (hm : shallowObjs ty (v.w.dbs top) ks [] = some m) :
    Inv ⟨v.w.shallowCore top m, fun j => if j = v.w.nDbs then v.smp top else v.smp j⟩ := by
  have hw := h.base.good.wf
  have htl : top < v.w.nDbs := by rw [← topOf_some ht]; exact rootOf_lt hw hi
  have htk : (v.w.dbs top).kind ≠ .subset := by rw [← topOf_some ht]; exact root_kind hw i
  refine ⟨h.base.prim (Prim.shallow hi ht hks hm), ?_, ?_, ?_⟩
  · intro j k a hf
    have hf' : ((v.w.shallowCore top m).dbs j).objs.find k = some a := hf
    rw [shallowCore_dbs m htl] at hf'
    show ((v.w.heap a).length : Int) = _
    split at hf'
    · rename_i hj
      subst hj
      rcases shallowObjs_find hm k a hf' with h1 | h1
      · cases h1
      · obtain ⟨k', hk'⟩ := getObjPtr_some h1.2
        rw [h.len top k' a hk']
        unfold nb; simp
    · rename_i hj
      have hf2 : (v.w.dbs j).objs.find k = some a := by split at hf' <;> exact hf'
      rw [h.len j k a hf2]
      unfold nb; simp only [if_neg hj]
  · intro t s hs
    have hs' : s ∈ ((v.w.shallowCore top m).dbs t).children := hs
    rw [shallowCore_dbs m htl] at hs'
    split at hs'
    · simp at hs'
    · rename_i htn
      simp only [if_neg htn]
      have old : s ∈ (v.w.dbs t).children → (if s = v.w.nDbs then v.smp top else v.smp s) = v.smp t := by
        intro hs2
        have := (hw.kids t s hs2).1
        rw [if_neg (by omega)]; exact h.same t s hs2
      split at hs'
      · rename_i htt
        subst htt
        rcases List.mem_cons.1 hs' with h1 | h1
        · rw [if_pos h1]
        · exact old h1
      · exact old hs'
  · intro j s hs
    simp only at hs
    split at hs
    · exact h.fair top s hs
    · exact h.fair j s hs

theorem Inv.write {v : VWorld α} (h : Inv v) (a : Nat) (x : List α) (hx : x.length = (v.w.heap a).length) :
    Inv { v with w := v.w.writeCore a x } := by
  refine ⟨h.base.heap _, ?_, h.same, h.fair⟩
  intro i k b hf
  have := h.len i k b hf
  show ((if b = a then x else v.w.heap b).length : Int) = v.nb i
  split
  · rename_i hb; subst hb; rw [hx]; exact this
  · exact this

theorem Inv.rename {v : VWorld α} (h : Inv v) {i : Nat} (hi : i < v.w.nDbs) (o n : Name) (ow : Bool)
    (hb : ¬ (ow = true ∧ (v.w.dbs (v.w.rootOf i)).contains ty n = true)) : Inv (v.rename i o n ow).1 := by
  have hw := h.base.good.wf
  unfold VWorld.rename withW World.rename
  simp only
  repeat' split
  all_goals first
    | exact h
    | skip
  rename_i _ _ hk hcon _ top ht how _ a ha
  have hr := topOf_some ht
  have hnt : top ∉ v.w.childrenOf i := by rw [← hr]; exact root_not_mem_children hw i
  have hp : Prim ty ⟨false, false⟩ v.w i (v.w.renameCore ty i top (toKey ty o) (toKey ty n) a) := by
    refine Prim.rename hi ht (by simpa using hk) (toKey_idem ty o) ha (by simpa using hcon) ?_
    intro _
    rw [contains_toKey (by decide)] at *
    rw [hr] at hb
    cases ow with
    | true => simpa using hb
    | false => simpa using how
  refine ⟨h.base.prim hp, ?_, ?_, h.fair⟩
  · intro j k b hf
    have hf' : ((v.w.renameCore ty i top (toKey ty o) (toKey ty n) a).dbs j).objs.find k = some b := hf
    show ((v.w.heap b).length : Int) = v.nb j
    rw [renameCore_dbs ty v.w i top _ _ a hnt j] at hf'
    split at hf'
    · rename_i hj
      rw [SMap.find_insert] at hf'
      split at hf'
      · cases hf'
        obtain ⟨k', hk'⟩ := getObjPtr_some ha
        rw [h.len top k' a hk']
        apply h.family
        rcases hj with hj | hj
        · rw [hj]
        · rw [(mem_childrenOf hw hj.1).2.2, hr, ← hr, rootOf_rootOf hw]
      · rw [SMap.find_erase] at hf'
        split at hf'
        · cases hf'
        · exact h.len j k b hf'
    · exact h.len j k b hf'
  · intro t s hs
    have hs' : s ∈ ((v.w.renameCore ty i top (toKey ty o) (toKey ty n) a).dbs t).children := hs
    rw [renameCore_dbs ty v.w i top _ _ a hnt t] at hs'
    refine h.same t s ?_
    split at hs' <;> exact hs'

/-! ## `set_sample` -/

theorem resized_spec {na : α} {old : List α} {nb d1 d2 n : Int} (h0 : 0 ≤ nb) (h1 : 0 ≤ d1) (h2 : 0 ≤ d2)
    (h4 : d1 + n ≤ old.length) (h5 : d2 + n ≤ nb) (hn : 0 ≤ n) :
    ∃ r, resized na old nb d1 d2 n = .ok r ∧ (r.length : Int) = nb ∧
      ∀ t : Nat, (t : Int) < nb → r[t]? = if d2 ≤ t ∧ t < d2 + n then old[(t - d2 + d1).toNat]? else some na := by
  obtain ⟨r, hr, hl, hv⟩ := copyLoop_spec old n.toNat (List.replicate nb.toNat na) d2.toNat d1.toNat (by omega)
    (by simp; omega)
  refine ⟨r, ?_, by rw [hl]; simp; omega, fun t ht => ?_⟩
  · unfold resized
    rw [if_neg (by omega), if_neg (by omega), hr]
  · rw [hv t]
    by_cases hc : d2 ≤ t ∧ t < d2 + n
    · rw [if_pos hc, if_pos (by omega)]; congr 1; omega
    · rw [if_neg hc, if_neg (by omega), List.getElem?_replicate, if_pos (by omega)]

theorem resizeLoop_spec {na : α} {nb d1 d2 n : Int} (h0 : 0 ≤ nb) (h1 : 0 ≤ d1) (h2 : 0 ≤ d2) (hn : 0 ≤ n)
    (h5 : d2 + n ≤ nb) : ∀ (as : List Nat) (w : World (List α)), as.Nodup →
      (∀ a ∈ as, d1 + n ≤ (w.heap a).length) →
      ∃ f, resizeLoop na w nb d1 d2 n as = ({ w with heap := f }, .ok true) ∧
        (∀ a ∈ as, resized na (w.heap a) nb d1 d2 n = .ok (f a)) ∧ ∀ a, a ∉ as → f a = w.heap a := by
  intro as
  induction as with
  | nil => intro w _ _; exact ⟨w.heap, rfl, by simp, fun _ _ => rfl⟩
  | cons a as ih =>
    intro w hnd hl
    obtain ⟨hna, hnd'⟩ := List.nodup_cons.1 hnd
    obtain ⟨r, hr, hrl, -⟩ := resized_spec (na := na) (old := w.heap a) h0 h1 h2 (hl a (by simp)) h5 hn
    obtain ⟨f, hf, hf1, hf2⟩ := ih (w.writeCore a r) hnd' (by
      intro b hb
      have : b ≠ a := by intro h; subst h; exact hna hb
      show d1 + n ≤ ((if b = a then r else w.heap b).length : Int)
      rw [if_neg this]; exact hl b (by simp [hb]))
    refine ⟨f, ?_, ?_, ?_⟩
    · simp only [resizeLoop, hr]
      rw [hf]; rfl
    · intro b hb
      by_cases hba : b = a
      · subst hba
        rw [hf2 b hna]
        show _ = Res.ok (if b = b then r else w.heap b)
        rw [if_pos rfl]; exact hr
      · have hb' : b ∈ as := by
          rcases List.mem_cons.1 hb with h | h
          · exact absurd h hba
          · exact h
        have := hf1 b hb'
        rw [show (w.writeCore a r).heap b = w.heap b from if_neg hba] at this
        exact this
    · intro b hb
      have hba : b ≠ a := fun h => hb (by simp [h])
      have hb' : b ∉ as := fun h => hb (by simp [h])
      rw [hf2 b hb']
      exact if_neg hba

/-- Everything about a successful or failed `set_sample` on a database that keeps the invariant. -/
theorem setSample_cases {na : α} {v : VWorld α} (h : Inv v) {i : Nat} {s : Sample} (hs : s.Fair) :
    (v.smp i = some s ∧ v.setSample na i s = (v, .ok true)) ∨
    (v.smp i ≠ some s ∧ (v.w.dbs i).kind = .subset ∧ v.setSample na i s = (v, .err)) ∨
    (v.smp i ≠ some s ∧ (v.w.dbs i).kind ≠ .subset ∧ ∃ old, v.smp i = some old ∧ overlap old s = .err ∧
      v.setSample na i s = (v, .err)) ∨
    (v.smp i ≠ some s ∧ (v.w.dbs i).kind ≠ .subset ∧ ∃ d1 d2 n f,
      copyBounds (v.smp i) s = .ok (d1, d2, n) ∧
      v.setSample na i s = (⟨{ v.w with heap := f }, fun j => if j = i ∨ j ∈ (v.w.dbs i).children then some s else v.smp j⟩, .ok true) ∧
      0 ≤ d1 ∧ 0 ≤ d2 ∧ 0 ≤ n ∧ d1 + n ≤ v.nb i ∧ d2 + n ≤ s.nb ∧
      (∀ k a, (v.w.dbs i).objs.find k = some a → resized na (v.w.heap a) s.nb d1 d2 n = .ok (f a)) ∧
      (∀ a, (∀ k, (v.w.dbs i).objs.find k ≠ some a) → f a = v.w.heap a)) := by
  have hpos := hs.nb_pos
  by_cases he : v.smp i = some s
  · left; refine ⟨he, ?_⟩
    unfold setSample; rw [if_neg (by omega), if_pos he]
  · right
    by_cases hk : (v.w.dbs i).kind = .subset
    · left; refine ⟨he, hk, ?_⟩
      unfold setSample; rw [if_neg (by omega), if_neg he, if_pos hk]
    · right
      have hgo : ∀ d1 d2 n, copyBounds (v.smp i) s = .ok (d1, d2, n) →
          0 ≤ d1 → 0 ≤ d2 → 0 ≤ n → d1 + n ≤ v.nb i → d2 + n ≤ s.nb → ∃ f,
          v.setSample na i s = (⟨{ v.w with heap := f }, fun j => if j = i ∨ j ∈ (v.w.dbs i).children then some s else v.smp j⟩, .ok true) ∧
          (∀ k a, (v.w.dbs i).objs.find k = some a → resized na (v.w.heap a) s.nb d1 d2 n = .ok (f a)) ∧
          (∀ a, (∀ k, (v.w.dbs i).objs.find k ≠ some a) → f a = v.w.heap a) := by
        intro d1 d2 n hov h1 h2 h3 h4 h5
        have hsort := h.base.sorted i
        have hnd := SMap.nodup_values hsort (fun k l a => h.base.good.unshared i i k l a (Or.inl rfl))
        obtain ⟨f, hf, hf1, hf2⟩ := resizeLoop_spec (na := na) (nb := s.nb) (Int.le_of_lt hpos) h1 h2 h3 h5
          ((v.w.dbs i).objs.map (·.2)) v.w hnd (by
            intro a ha
            obtain ⟨⟨k, a'⟩, hm, rfl⟩ := List.mem_map.1 ha
            rw [h.len i k a' (SMap.find_of_mem hsort hm)]; exact h4)
        refine ⟨f, ?_, ?_, ?_⟩
        · unfold setSample
          rw [if_neg (by omega), if_neg he, if_neg hk, hov]
          simp only [hf]
        · intro k a hka
          exact hf1 a (List.mem_map.2 ⟨_, SMap.mem_of_find hka, rfl⟩)
        · intro a ha
          refine hf2 a ?_
          intro hmm
          obtain ⟨⟨k, a'⟩, hm, rfl⟩ := List.mem_map.1 hmm
          exact ha k (SMap.find_of_mem hsort hm)
      cases hsm : v.smp i with
      | none =>
        right
        obtain ⟨f, hf, hf1, hf2⟩ := hgo 0 0 0 (by rw [hsm]; rfl) (by omega) (by omega) (by omega) (by simp [nb, hsm]) (by omega)
        exact ⟨by simp, hk, 0, 0, 0, f, rfl, hf, by omega, by omega, by omega, by simp [nb, hsm], by omega, hf1, hf2⟩
      | some old =>
        have hof := h.fair i old hsm
        cases hov : overlap old s with
        | err =>
          left
          refine ⟨by rw [← hsm]; exact he, hk, old, rfl, hov, ?_⟩
          unfold setSample
          rw [if_neg (by omega), if_neg he, if_neg hk, hsm]
          simp only [copyBounds, hov]
        | ub => exact absurd hov (overlap_no_ub hof hs)
        | ok p =>
          right
          obtain ⟨d1, d2, n⟩ := p
          obtain ⟨h1, h2, h3, h4, h5, -⟩ := overlap_ok hof hs hov
          have hnb : v.nb i = old.nb := by simp [nb, hsm]
          obtain ⟨f, hf, hf1, hf2⟩ := hgo d1 d2 n (by rw [hsm]; exact hov) h1 h2 (by omega) (by omega) h5
          exact ⟨by rw [← hsm]; exact he, hk, d1, d2, n, f, hov, hf, h1, h2, by omega, by omega, h5, hf1, hf2⟩

theorem Inv.setSample {na : α} {v : VWorld α} (h : Inv v) {i : Nat} {s : Sample} (hs : s.Fair) :
    Inv (v.setSample na i s).1 ∧ (v.setSample na i s).1.w.nDbs = v.w.nDbs := by
  have hw := h.base.good.wf
  rcases setSample_cases (na := na) (i := i) h hs with ⟨-, he⟩ | ⟨-, -, he⟩ | ⟨-, -, old, -, -, he⟩ |
    ⟨-, hk, d1, d2, n, f, -, he, g1, g2, g3, g4, g5, hf1, hf2⟩
  · rw [he]; exact ⟨h, rfl⟩
  · rw [he]; exact ⟨h, rfl⟩
  · rw [he]; exact ⟨h, rfl⟩
  · rw [he]
    refine ⟨⟨h.base.heap f, ?_, ?_, ?_⟩, rfl⟩
    · intro j k a hf
      have hf' : (v.w.dbs j).objs.find k = some a := hf
      have hnb : nb (⟨{ v.w with heap := f }, fun j => if j = i ∨ j ∈ (v.w.dbs i).children then some s else v.smp j⟩ : VWorld α) j =
          if j = i ∨ j ∈ (v.w.dbs i).children then s.nb else v.nb j := by
        by_cases hq : j = i ∨ j ∈ (v.w.dbs i).children
        · simp only [nb, if_pos hq]
        · simp only [nb, if_neg hq]
      show ((f a).length : Int) = _
      rw [hnb]
      have hin : ∀ k', (v.w.dbs i).objs.find k' = some a → ((f a).length : Int) = s.nb := by
        intro k' hk'
        obtain ⟨r, hr, hrl, -⟩ := resized_spec (na := na) (old := v.w.heap a) (nb := s.nb) (Int.le_of_lt hs.nb_pos) g1 g2
          (by rw [h.len i k' a hk']; exact g4) g5 g3
        rw [hf1 k' a hk'] at hr; cases hr; exact hrl
      split
      · rename_i hj
        rcases hj with hj | hj
        · subst hj; exact hin k hf'
        · exact hin k (h.base.coh i j k a hj hf')
      · rename_i hj
        rw [hf2 a]
        · exact h.len j k a hf'
        · intro k' hk'
          have hr := hw.sep i j k' k a hk' hf'
          rw [rootOf_of_ne hk] at hr
          by_cases hjs : (v.w.dbs j).kind = .subset
          · exact hj (Or.inr (by rw [hr]; exact h.base.reg j hjs))
          · rw [rootOf_of_ne hjs] at hr
            exact hj (Or.inl hr.symm)
    · intro t c hc
      have hc' : c ∈ (v.w.dbs t).children := hc
      simp only
      have hcs := hw.kids t c hc'
      by_cases hti : t = i
      · subst hti; rw [if_pos (Or.inr hc'), if_pos (Or.inl rfl)]
      · rw [if_neg, if_neg]
        · exact h.same t c hc'
        · rintro (h' | h')
          · exact hti h'
          · exact hw.kid_parent_kind hc' (hw.kids _ _ h').2.1
        · rintro (h' | h')
          · subst h'; exact hk hcs.2.1
          · have := (hw.kids _ _ h').2.2
            rw [hcs.2.2] at this; cases this; exact hti rfl
    · intro j s' hs'
      simp only at hs'
      split at hs'
      · cases hs'; exact hs
      · exact h.fair j s' hs'

/-! ## `KV_merge` -/

theorem copyLoop_length (src : List α) : ∀ (n : Nat) (dst : List α) (d s : Nat) (r : List α),
    copyLoop dst src d s n = .ok r → r.length = dst.length := by
  intro n
  induction n with
  | zero => intro dst d s r h; cases h; rfl
  | succ n ih =>
    intro dst d s r h
    unfold copyLoop at h
    split at h
    · cases h
    · split at h
      · have := ih _ _ _ _ h; simpa using this
      · cases h

theorem Inv.kvMergeOne {na : α} {v : VWorld α} (h : Inv v) {i : Nat} (hi : i < v.w.nDbs) (j : Nat) (d1 d2 n : Int)
    (rep : Bool) (k : Name) : Inv (v.kvMergeOne na i j d1 d2 n rep k).1 ∧
      (v.kvMergeOne na i j d1 d2 n rep k).1.w.nDbs = v.w.nDbs ∧ (v.kvMergeOne na i j d1 d2 n rep k).1.smp = v.smp := by
  unfold VWorld.kvMergeOne
  simp only
  split
  · exact ⟨h, rfl, rfl⟩
  · have h0 : ∀ p : VWorld α × Res Bool, (if (v.w.dbs i).contains ty k = false then
        (if v.nb i < 0 then (v, Res.err) else v.set i k (List.replicate (v.nb i).toNat na)) else (v, .ok true)) = p →
        Inv p.1 ∧ p.1.w.nDbs = v.w.nDbs ∧ p.1.smp = v.smp := by
      intro p he
      subst he
      split
      · split
        · exact ⟨h, rfl, rfl⟩
        · exact h.set hi k _
      · exact ⟨h, rfl, rfl⟩
    generalize (if (v.w.dbs i).contains ty k = false then
        (if v.nb i < 0 then (v, Res.err) else v.set i k (List.replicate (v.nb i).toNat na)) else (v, .ok true)) = p at h0 ⊢
    obtain ⟨h1, h2, h3⟩ := h0 p rfl
    obtain ⟨v1, r⟩ := p
    simp only at h1 h2 h3
    cases r with
    | ok b =>
      simp only
      split
      · split
        · exact ⟨h1, h2, h3⟩
        · split
          · rename_i x hx
            exact ⟨h1.write _ x (copyLoop_length _ _ _ _ _ _ hx), h2, h3⟩
          · exact ⟨h1, h2, h3⟩
          · exact ⟨h1, h2, h3⟩
      · exact ⟨h1, h2, h3⟩
    | err => exact ⟨h1, h2, h3⟩
    | ub => exact ⟨h1, h2, h3⟩

theorem Inv.kvMergeLoop {na : α} {i : Nat} (j : Nat) (d1 d2 n : Int) (rep : Bool) (ks : List Name) {v : VWorld α}
    (h : Inv v) (hi : i < v.w.nDbs) : Inv (v.kvMergeLoop na i j d1 d2 n rep ks).1 := by
  induction ks generalizing v with
  | nil => exact h
  | cons k ks ih =>
    simp only [VWorld.kvMergeLoop]
    have hc := h.kvMergeOne (na := na) hi j d1 d2 n rep k
    generalize v.kvMergeOne na i j d1 d2 n rep k = p at hc ⊢
    obtain ⟨v1, r⟩ := p
    obtain ⟨h1, h2, h3⟩ := hc
    cases r with
    | ok b => exact ih h1 (by rw [h2]; exact hi)
    | err => exact h1
    | ub => exact h1

theorem Inv.kvMergeBody {na : α} {v : VWorld α} (h : Inv v) {i : Nat} (hi : i < v.w.nDbs) (j : Nat) (rep : Bool) :
    Inv (v.kvMergeBody na i j rep).1 := by
  unfold VWorld.kvMergeBody
  split
  · split
    · exact h
    · exact h
    · exact Inv.kvMergeLoop _ _ _ _ _ _ h hi
  · exact h

theorem Inv.kvMerge {na : α} {v : VWorld α} (h : Inv v) {i : Nat} (hi : i < v.w.nDbs) (j : Nat) (rep : Bool) :
    Inv (v.kvMerge na i j rep).1 := by
  unfold VWorld.kvMerge
  split
  · exact h.kvMergeBody hi j rep
  · split
    · exact h
    · rename_i s2 hs2
      have hc := h.setSample (na := na) (i := i) (h.fair j s2 hs2)
      generalize v.setSample na i s2 = p at hc ⊢
      obtain ⟨v1, r⟩ := p
      obtain ⟨h1, h2⟩ := hc
      simp only at h1 h2
      cases r with
      | ok b =>
        simp only
        split
        · exact h1
        · exact h1.kvMergeBody (by rw [h2]; exact hi) j rep
      | err => exact h1
      | ub => exact h1

end VWorld
end Iode
