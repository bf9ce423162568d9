import Verif.Lemmas.VarsInv

/-!
# C11  Every variable has exactly one value per period of the sample

Histories of all the calls of `VOp`, from nothing. Three things break the claim and are excluded, each with a
counterexample: renaming onto a name in use with `overwrite` (a subset keeps a stale variable), clearing a subset (its
sister subsets lose their sample) and samples of more than 32767 periods (the counter is a `short`).
-/
namespace Iode
namespace VWorld
open World
variable {α : Type}

/-- The call renames a variable onto a name in use. -/
def VOp.RenamesOntoUsed (v : VWorld α) : VOp α → Prop
  | .rename i _ new ow => ow = true ∧ (v.w.dbs (v.w.rootOf i)).contains ty new = true
  | _ => False

/-- The call clears a subset (directly or as source of a merge). -/
def VOp.ClearsSubset (v : VWorld α) : VOp α → Prop
  | .clear i => (v.w.dbs i).kind = .subset
  | .merge _ j _ c => c = true ∧ (v.w.dbs j).kind = .subset
  | _ => False

/-- The call sets a sample that is not made of two existing periods, or has too many periods. -/
def VOp.BadSample : VOp α → Prop
  | .setSample _ s => ¬ s.Fair
  | _ => False

/-- No call of the history is one of the three. -/
def Regular (na : α) : VWorld α → List (VOp α) → Prop
  | _, [] => True
  | v, op :: ops => ¬ op.RenamesOntoUsed v ∧ ¬ op.ClearsSubset v ∧ ¬ op.BadSample ∧ Regular na (v.step na op).1 ops

theorem setObjPtr_kind (v : VWorld α) (i : Nat) (name : Name) (a : Nat) (x : Nat) :
    (((v.setObjPtr i name a).1).w.dbs x).kind = (v.w.dbs x).kind := by
  unfold VWorld.setObjPtr withW World.setObjPtr
  simp only
  repeat' split
  all_goals first
    | rfl
    | skip
  rename_i _ _ _ top ht _
  show ((v.w.allocPut ty i top (toKey ty name) (v.w.heap a)).dbs x).kind = _
  rw [allocPut_dbs ty v.w i top _ _ ht x]
  split <;> rfl

theorem copyObjFrom_kind (v : VWorld α) (i j : Nat) (s d : Name) (x : Nat) :
    (((v.copyObjFrom i j s d).1).w.dbs x).kind = (v.w.dbs x).kind := by
  unfold VWorld.copyObjFrom
  split
  · rfl
  · exact setObjPtr_kind _ _ _ _ _

theorem remove_kind (v : VWorld α) (i : Nat) (name : Name) (x : Nat) :
    (((v.remove i name).1).w.dbs x).kind = (v.w.dbs x).kind := by
  unfold VWorld.remove withW World.remove
  simp only
  split
  · rfl
  · split
    · rename_i top ht _
      show ((v.w.removeCore i top (toKey ty name)).dbs x).kind = _
      rw [removeCore_dbs]; split <;> rfl
    · rfl

theorem mergeLoop_kind (i j : Nat) (ow : Bool) (ks : List Name) (v : VWorld α) (x : Nat) :
    (((v.mergeLoop i j ow ks).1).w.dbs x).kind = (v.w.dbs x).kind := by
  induction ks generalizing v with
  | nil => rfl
  | cons k ks ih =>
    simp only [VWorld.mergeLoop]
    split
    · split
      · exact ih v
      · have h0 : ((if (v.w.dbs i).contains ty k = true then (v.remove i k).1 else v).w.dbs x).kind = (v.w.dbs x).kind := by
          split
          · exact remove_kind v i k x
          · rfl
        generalize (if (v.w.dbs i).contains ty k = true then (v.remove i k).1 else v) = v1 at h0 ⊢
        have h1 := copyObjFrom_kind v1 i j k k x
        generalize v1.copyObjFrom i j k k = p at h1 ⊢
        obtain ⟨v2, r⟩ := p
        simp only at h1
        cases r with
        | ok b => exact (ih v2).trans (h1.trans h0)
        | err => exact h1.trans h0
        | ub => exact h1.trans h0
    · exact ih v

theorem Inv.step {na : α} {v : VWorld α} (h : Inv v) (op : VOp α) (h1 : ¬ op.RenamesOntoUsed v)
    (h2 : ¬ op.ClearsSubset v) (h3 : ¬ op.BadSample) : Inv (v.step na op).1 := by
  unfold VWorld.step
  split
  · exact h
  rename_i hv
  cases op with
  | create g => exact h.create g none (by simp)
  | set i n x => simp [VOp.valid] at hv; exact (h.set hv n x).1
  | add i n x =>
    simp [VOp.valid] at hv
    show Inv (v.add i n x).1
    unfold VWorld.add
    split
    · exact h
    · split
      · rename_i hs
        unfold withW World.add
        simp only
        repeat' split
        all_goals first
          | exact h
          | skip
        rename_i _ hk _ _ _ top ht
        exact h.put hv ht (by simpa using hk) (by simpa [sizeOk] using hs)
      · exact h
  | update i n x =>
    simp [VOp.valid] at hv
    show Inv (v.update i n x).1
    unfold VWorld.update
    split
    · rename_i hs
      unfold withW World.update
      simp only
      split
      · have := (h.set hv (toKey ty n) x).1
        unfold VWorld.set VWorld.setObjPtr at this
        simp only at this
        rw [if_pos] at this
        · exact this
        · show decide (((if v.w.nHeap = v.w.nHeap then x else v.w.heap v.w.nHeap).length : Int) = v.nb i) = true
          rw [if_pos rfl]; exact hs
      · exact h
    · exact h
  | remove i n => simp [VOp.valid] at hv; exact (h.remove hv n).1
  | rename i o n ow => simp [VOp.valid] at hv; exact h.rename hv o n ow h1
  | clear i => simp [VOp.valid] at hv; exact h.clear hv h2
  | poke i n t x =>
    show Inv (v.poke i n t x).1
    unfold VWorld.poke
    split
    · exact h
    · split
      · split
        · exact h.write _ _ (by simp)
        · exact h
      · exact h
  | copyObj i j s d => simp [VOp.valid] at hv; exact (h.copyObjFrom hv.1 j s d).1
  | subset i ns c =>
    simp [VOp.valid] at hv
    show Inv (v.getSubset i ns c).1
    unfold VWorld.getSubset
    split
    · exact h
    · rename_i ks hks
      split
      · exact h
      · rename_i top ht
        split
        · simp only
          have hc := (h.create false (v.smp top) (fun s hs => h.fair top s hs)).deepCopy (i := v.w.nDbs) (j := top) ks (Nat.lt_succ_self _)
          split
          · rename_i v2 b he
            simp only [Bool.false_eq_true, if_false] at hc
            rw [he] at hc
            exact hc.1
          · exact h
        · split
          · exact h
          · rename_i m hm
            exact h.shallow hv ht (filterNames_mem hks) hm
  | duplicate i j o n =>
    simp [VOp.valid] at hv
    show Inv (v.duplicate i j o n).1
    unfold VWorld.duplicate
    simp only
    split
    · exact h
    · split
      · exact h
      · have h0 : Inv (if (v.w.dbs i).contains ty n = true then (v.remove i (toKey ty n)).1 else v) ∧
            (if (v.w.dbs i).contains ty n = true then (v.remove i (toKey ty n)).1 else v).w.nDbs = v.w.nDbs := by
          split
          · exact ⟨(h.remove hv.1 _).1, (h.remove hv.1 _).2.1⟩
          · exact ⟨h, rfl⟩
        generalize (if (v.w.dbs i).contains ty n = true then (v.remove i (toKey ty n)).1 else v) = v1 at h0 ⊢
        split
        · exact h0.1
        · exact (h0.1.copyObjFrom (by rw [h0.2]; exact hv.1) j _ _).1
  | merge i j ow c =>
    simp [VOp.valid] at hv
    show Inv (v.merge i j ow c).1
    unfold VWorld.merge
    split
    · exact h
    · have hm := h.mergeLoop (j := j) ow (v.w.dbs j).objs.keys hv.1
      have hkk := mergeLoop_kind i j ow (v.w.dbs j).objs.keys v j
      generalize v.mergeLoop i j ow (v.w.dbs j).objs.keys = p at hm hkk ⊢
      obtain ⟨v1, r⟩ := p
      obtain ⟨g1, g2, g3⟩ := hm
      simp only at g1 g2 g3 hkk
      cases r with
      | ok b =>
        simp only
        split
        · rename_i hc
          refine g1.clear (by rw [g2]; exact hv.2) ?_
          rw [hkk]
          intro hk; exact h2 ⟨hc, hk⟩
        · exact g1
      | err => exact g1
      | ub => exact g1
  | setSample i s => exact (h.setSample (by simpa [VOp.BadSample] using h3)).1
  | kvMerge i j r => simp [VOp.valid] at hv; exact h.kvMerge hv.1 j r

theorem Inv.run {na : α} (ops : List (VOp α)) {v : VWorld α} (h : Inv v) (hr : Regular na v ops) : Inv (v.run na ops) := by
  induction ops generalizing v with
  | nil => exact h
  | cons op ops ih => exact ih (h.step op hr.1 hr.2.1 hr.2.2.1) hr.2.2.2

end VWorld
open VWorld

/-- C11. After every regular history, whatever a user reads under a name has one value per period of the sample of that
    workspace (none if there is no sample). Missing for the full claim: histories with one of the three excluded calls,
    for which it is false. -/
theorem C11_lengths_partial {α : Type} (na : α) (ops : List (VOp α)) (hr : Regular na VWorld.init ops)
    (i : Nat) (name : Name) (x : List α) (hx : ((VWorld.init : VWorld α).run na ops).look i name = some x) :
    (x.length : Int) = match ((VWorld.init : VWorld α).run na ops).smp i with | none => 0 | some s => s.nb := by
  have h := Inv.run ops (Inv.init (α := α)) hr
  generalize (VWorld.init : VWorld α).run na ops = v at *
  unfold VWorld.look World.look at hx
  cases hp : (v.w.dbs i).getObjPtr ty name with
  | none => rw [hp] at hx; cases hx
  | some a =>
    rw [hp] at hx
    obtain ⟨k, hk⟩ := World.getObjPtr_some hp
    cases hx
    have := h.len i k a hk
    unfold nb at this
    split <;> rename_i hs <;> simpa [hs] using this

/-- C11. A subset always has the sample of the workspace it was taken from. -/
theorem C11_subset_sample_partial {α : Type} (na : α) (ops : List (VOp α)) (hr : Regular na VWorld.init ops) (s : Nat)
    (hs : (((VWorld.init : VWorld α).run na ops).w.dbs s).kind = .subset) :
    ∃ p, (((VWorld.init : VWorld α).run na ops).w.dbs s).parent = some p ∧
      ((VWorld.init : VWorld α).run na ops).smp s = ((VWorld.init : VWorld α).run na ops).smp p := by
  have h := Inv.run ops (Inv.init (α := α)) hr
  generalize (VWorld.init : VWorld α).run na ops = v at *
  obtain ⟨p, -, hp, -⟩ := h.base.good.wf.par s hs
  refine ⟨p, hp, ?_⟩
  rw [h.root s, World.rootOf_of_subset hs hp]

/-- C11. Writing a value at a position inside the sample never leaves the vector, and changing the sample never does. -/
theorem C11_no_out_of_bounds_partial {α : Type} (na : α) (ops : List (VOp α)) (hr : Regular na VWorld.init ops)
    (i : Nat) (name : Name) (t : Nat) (x : α) (s : Sample) (hs : s.Fair) :
    (((VWorld.init : VWorld α).run na ops).poke i name t x).2 ≠ .ub ∧
    (((VWorld.init : VWorld α).run na ops).setSample na i s).2 ≠ .ub := by
  have h := Inv.run ops (Inv.init (α := α)) hr
  generalize (VWorld.init : VWorld α).run na ops = v at *
  constructor
  · unfold VWorld.poke
    cases hp : (v.w.dbs i).getObjPtr ty name with
    | none => simp
    | some a =>
      obtain ⟨k, hk⟩ := World.getObjPtr_some hp
      have := h.len i k a hk
      simp only
      split
      · rename_i ht
        rw [if_pos (by omega)]; simp
      · simp
  · rcases setSample_cases (na := na) (i := i) h hs with ⟨-, he⟩ | ⟨-, -, he⟩ | ⟨-, -, old, -, -, he⟩ |
      ⟨-, -, d1, d2, n, f, -, he, -⟩ <;> rw [he] <;> simp

/-! ### Examples and counterexamples -/

/-- 2000Y1:2002Y1 -/
def smp3 : Sample := ⟨⟨2000, 1, 'Y'⟩, ⟨2002, 1, 'Y'⟩, 3⟩
/-- 2001Y1:2004Y1 -/
def smp4 : Sample := ⟨⟨2001, 1, 'Y'⟩, ⟨2004, 1, 'Y'⟩, 4⟩

theorem smp3_fair : smp3.Fair := ⟨2, ⟨⟨1, rfl, by decide, by decide⟩, ⟨1, rfl, by decide, by decide⟩, rfl, rfl⟩, by decide, rfl⟩
theorem smp4_fair : smp4.Fair := ⟨3, ⟨⟨1, rfl, by decide, by decide⟩, ⟨1, rfl, by decide, by decide⟩, rfl, rfl⟩, by decide, rfl⟩

/-- A regular history: two workspaces, a subset, two changes of sample and a merge. -/
def regularHistory : List (VOp Int) :=
  [.create true, .setSample 0 smp3, .set 0 "A".toList [1, 2, 3], .subset 0 (some ["A".toList]) false,
   .set 1 "B".toList [4, 5, 6], .setSample 0 smp4, .create false, .kvMerge 2 0 false]

example : Regular (-1) VWorld.init regularHistory := by
  have h3 := smp3_fair
  have h4 := smp4_fair
  simp only [Regular, regularHistory, VOp.RenamesOntoUsed, VOp.ClearsSubset, VOp.BadSample]
  simp [h3, h4]

example :
    ((VWorld.init : VWorld Int).run (-1) regularHistory).look 2 "A".toList = some [2, 3, -1, -1] ∧
    ((VWorld.init : VWorld Int).run (-1) regularHistory).look 1 "B".toList = some [5, 6, -1, -1] := by decide

/-- Clearing a subset removes the sample of its sister subsets; a variable without values can then be stored in the
    workspace through the sister. -/
def clearsASubset : List (VOp Int) :=
  [.create true, .setSample 0 smp3, .set 0 "A".toList [1, 2, 3], .subset 0 (some ["A".toList]) false,
   .subset 0 (some ["A".toList]) false, .clear 1, .set 2 "X".toList []]

theorem C11_cleared_subset_counterexample :
    let v := (VWorld.init : VWorld Int).run (-1) clearsASubset
    v.smp 2 = none ∧ v.look 2 "A".toList = some [1, 2, 3] ∧ v.smp 0 = some smp3 ∧ v.look 0 "X".toList = some [] := by
  decide

/-- Renaming onto a name in use leaves the old variable in the subset, where a change of sample does not reach it. -/
def renamesOntoUsed : List (VOp Int) :=
  [.create true, .setSample 0 smp3, .set 0 "A".toList [1, 2, 3], .set 0 "B".toList [4, 5, 6],
   .subset 0 (some ["B".toList]) false, .rename 0 "A".toList "B".toList true, .setSample 0 smp4]

theorem C11_rename_counterexample :
    let v := (VWorld.init : VWorld Int).run (-1) renamesOntoUsed
    v.smp 1 = some smp4 ∧ v.look 1 "B".toList = some [4, 5, 6] := by
  decide

/-- A sample whose counter has overflowed: the change of sample fails after having emptied a variable. -/
def overflows : List (VOp Int) :=
  [.create true, .setSample 0 ⟨⟨2000, 1, 'D'⟩, ⟨2000, 2, 'D'⟩, 2⟩, .set 0 "A".toList [1, 2],
   .setSample 0 ⟨⟨1900, 1, 'D'⟩, ⟨2000, 365, 'D'⟩, -28671⟩]

theorem C11_overflow_counterexample :
    let v := (VWorld.init : VWorld Int).run (-1) overflows
    Sample.ofPeriods ⟨1900, 1, 'D'⟩ ⟨2000, 365, 'D'⟩ = .ok ⟨⟨1900, 1, 'D'⟩, ⟨2000, 365, 'D'⟩, -28671⟩ ∧
    v.look 0 "A".toList = some [] ∧ v.nb 0 = -28671 := by
  decide

end Iode
