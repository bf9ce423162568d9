import Verif.Lemmas.KdbVal

/-!
# C05  A workspace behaves as a finite map from names to objects

Specification: what a user sees of a workspace is a function from (all) names to objects. Each call has an effect on
that function and an answer, given by `Call.spec` without any reference to databases, keys or pointers. Two names are
the same name when they agree after trimming and the change of case of their type.
-/
namespace Iode
open World

/-- The calls a user makes on one workspace. -/
inductive Call (T : Type) where
  | set (name : Name) (v : T)
  | add (name : Name) (v : T)
  | update (name : Name) (v : T)
  | remove (name : Name)
  | rename (old new : Name) (overwrite : Bool)
  | clear
  | modify (name : Name) (v : T)

/-- The operation of the model for a call on workspace `i`. -/
def Call.op {T : Type} (i : Nat) : Call T → Op T
  | .set n v => .set i n v
  | .add n v => .add i n v
  | .update n v => .update i n v
  | .remove n => .remove i n
  | .rename o n ow => .rename i o n ow
  | .clear => .clear i
  | .modify n v => .modify i n v

/-- Two ways to write the same name. -/
def SameName (ty : ObjType) (x y : Name) : Prop := toKey ty x = toKey ty y

open Classical in
/-- Map after storing `v` (or nothing) under `n`. -/
noncomputable def put {T : Type} (ty : ObjType) (m : Name → Option T) (n : Name) (v : Option T) : Name → Option T :=
  fun x => if SameName ty x n then v else m x

open Classical in
/-- Effect and answer of a call on a map. `err` is an exception. -/
noncomputable def Call.spec {T : Type} (ty : ObjType) (m : Name → Option T) : Call T → (Name → Option T) × Res Bool
  | .set n v => if ValidName ty (toKey ty n) then (put ty m n (some v), .ok true) else (m, .err)
  | .add n v => if ValidName ty (toKey ty n) ∧ m n = none then (put ty m n (some v), .ok true) else (m, .err)
  | .update n v => if m n = none then (m, .err) else (put ty m n (some v), .ok true)
  | .modify n v => if m n = none then (m, .err) else (put ty m n (some v), .ok true)
  | .remove n => if m n = none then (m, .ok false) else (put ty m n none, .ok true)
  | .clear => (fun _ => none, .ok true)
  | .rename o n ow =>
    if ty = .equations then (m, .err)
    else if ∀ x, m x = none then (m, .ok false)
    else if ¬ ValidName ty (toKey ty n) ∨ m o = none ∨ (ow = false ∧ m n ≠ none) then (m, .err)
    else (put ty (put ty m o none) n (m o), .ok true)

/-- The map and the answers after a list of calls. -/
noncomputable def Call.specs {T : Type} (ty : ObjType) (m : Name → Option T) : List (Call T) → (Name → Option T) × List (Res Bool)
  | [] => (m, [])
  | c :: cs => ((Call.specs ty (c.spec ty m).1 cs).1, (c.spec ty m).2 :: (Call.specs ty (c.spec ty m).1 cs).2)

/-- The answers given by the model along a history. -/
def World.answers {T : Type} (ty : ObjType) (w : World T) : List (Op T) → List (Res Bool)
  | [] => []
  | op :: ops => (w.step ty op).2 :: World.answers ty (w.step ty op).1 ops

namespace World
variable {T : Type}

theorem look_put {ty : ObjType} (hty : ty ≠ .comments) {w w' : World T} (hk : w.KeysOk ty) (hk' : w'.KeysOk ty) {i : Nat}
    {n : Name} {v : Option T} (h : ∀ k, w'.val i k = if k = toKey ty n then v else w.val i k) :
    w'.look ty i = put ty (w.look ty i) n v := by
  funext x
  rw [look_eq hty hk', h]
  unfold put SameName
  rw [look_eq hty hk]
  congr

theorem look_none {ty : ObjType} (hty : ty ≠ .comments) {w : World T} (hk : w.KeysOk ty) (i : Nat) (n : Name) :
    w.look ty i n = none ↔ (w.dbs i).objs.has (toKey ty n) = false := by
  rw [look_eq hty hk, val_none]

theorem valid_iff (ty : ObjType) (s : Name) : ValidName ty s ↔ checkName ty s = true := (C08_check_iff_valid ty s).symm

theorem objs_empty {ty : ObjType} (hty : ty ≠ .comments) {w : World T} (hk : w.KeysOk ty) (i : Nat) :
    (w.dbs i).objs = [] ↔ ∀ x, w.look ty i x = none := by
  constructor
  · intro h x; rw [look_none hty hk, h]; rfl
  · intro h
    cases ho : (w.dbs i).objs with
    | nil => rfl
    | cons e l =>
      have hm : e.1 ∈ (w.dbs i).objs.keys := by rw [ho]; simp [SMap.keys]
      have h1 := h e.1
      rw [look_none hty hk, toKey_of_checkName (hk i _ hm), SMap.has_false_iff] at h1
      obtain ⟨a, ha⟩ := (SMap.mem_keys_iff _ _).1 hm
      rw [h1] at ha; cases ha

/-- One call refines its specification. -/
theorem call_refines {ty : ObjType} (hty : ty ≠ .comments) {w : World T} (hg : w.Good ty) {i : Nat} (hi : i < w.nDbs)
    (hk : (w.dbs i).kind ≠ .subset) (c : Call T) :
    ((w.step ty (c.op i)).1.look ty i, (w.step ty (c.op i)).2) = c.spec ty (w.look ty i) ∧
      ((w.step ty (c.op i)).1.dbs i).kind = (w.dbs i).kind := by
  have hg' := hg.step hty (c.op i)
  have hkeys := hg.keys
  have hkeys' := hg'.keys
  have look_same : ∀ w' : World T, w'.dbs = w.dbs → w'.KeysOk ty → (∀ k, w'.val i k = w.val i k) → w'.look ty i = w.look ty i := by
    intro w' _ h1 h2; funext x; rw [look_eq hty h1, look_eq hty hkeys, h2]
  cases c with
  | set n v =>
    simp only [Call.op, World.step, Op.valid, hi, decide_true, Bool.true_eq_false, if_false, Call.spec] at hkeys' ⊢
    by_cases hv : checkName ty (toKey ty n) = true
    · rw [if_pos ((valid_iff _ _).2 hv)]
      obtain ⟨h1, h2, h3, h4⟩ := set_val hty hg.wf hk hv v
      exact ⟨by rw [look_put hty hkeys hkeys' h2, h1], h3 i⟩
    · have hv' : ¬ ValidName ty (toKey ty n) := fun h => hv ((valid_iff _ _).1 h)
      rw [if_neg hv']
      obtain ⟨h1, h2, -, -⟩ := C08_invalid_rejected ty w i n v hv'
      have e : (w.set ty i n v).1.look ty i = w.look ty i := by
        funext x
        have he : (w.set ty i n v).1 = (w.alloc v).1 := by
          have hb : checkName ty (toKey ty n) = false := by simpa using hv
          unfold World.set setObjPtr
          simp only [hb, if_true]; split <;> rfl
        rw [look_eq hty hkeys', he, alloc_val hg.wf, look_eq hty hkeys]
      exact ⟨by rw [h1, e], by rw [h2]⟩
  | add n v =>
    simp only [Call.op, World.step, Op.valid, hi, decide_true, Bool.true_eq_false, if_false, Call.spec] at hkeys' ⊢
    simp only [look_none hty hkeys, valid_iff]
    have hpc : w.parentContains ty i (toKey ty n) = false := by
      unfold parentContains; split
      · rename_i hh; exact absurd hh hk
      · rfl
    have he : w.add ty i n v = if checkName ty (toKey ty n) = true ∧ (w.dbs i).objs.has (toKey ty n) = false
        then (w.allocPut ty i i (toKey ty n) v, .ok true) else (w, .err) := by
      unfold World.add
      simp only [topOf_self hk, contains_of_ne hty, toKey_idem, hpc, Bool.false_eq_true, if_false]
      cases h1 : checkName ty (toKey ty n) with
      | false =>
        simp only [if_true, Bool.false_eq_true, false_and, if_false]; split <;> rfl
      | true =>
        have hne : toKey ty n ≠ [] := by intro e; rw [e] at h1; simp [checkName] at h1
        rw [if_neg hne]
        cases h2 : (w.dbs i).objs.has (toKey ty n)
        · simp only [Bool.true_eq_false, Bool.false_eq_true, if_false, and_self, if_true]; rfl
        · simp only [Bool.true_eq_false, if_false, if_true, and_false]
    rw [he] at hkeys' ⊢
    split
    · rename_i hc
      rw [if_pos hc] at hkeys'
      exact ⟨by rw [look_put hty hkeys hkeys' (fun k => allocPut_val hg.wf hk _ v k)], allocPut_kind hk _ _ i⟩
    · exact ⟨rfl, rfl⟩
  | update n v =>
    simp only [Call.op, World.step, Op.valid, hi, decide_true, Bool.true_eq_false, if_false, Call.spec] at hkeys' ⊢
    simp only [look_none hty hkeys]
    unfold World.update at hkeys' ⊢
    simp only [contains_of_ne hty, toKey_idem] at hkeys' ⊢
    cases hh : (w.dbs i).objs.has (toKey ty n) with
    | false => simp
    | true =>
      simp only [hh, if_true, Bool.true_eq_false, if_false] at hkeys' ⊢
      have hv : checkName ty (toKey ty (toKey ty n)) = true := by
        rw [toKey_idem]; exact hkeys i _ ((SMap.has_iff_mem _ _).1 hh)
      obtain ⟨h1, h2, h3, h4⟩ := set_val hty hg.wf hk hv v
      rw [toKey_idem] at h2
      exact ⟨by rw [look_put hty hkeys hkeys' h2, h1], h3 i⟩
  | modify n v =>
    simp only [Call.op, World.step, Op.valid, hi, decide_true, Bool.true_eq_false, if_false, Call.spec] at hkeys' ⊢
    unfold World.modify at hkeys' ⊢
    have hl : w.look ty i n = ((w.dbs i).getObjPtr ty n).map w.heap := rfl
    cases hp : (w.dbs i).getObjPtr ty n with
    | none => rw [hl, hp]; exact ⟨rfl, rfl⟩
    | some a =>
      rw [hl, hp]
      rw [hp] at hkeys'
      have hf : (w.dbs i).objs.find (toKey ty n) = some a := by
        rw [getObjPtr_of_ne hty] at hp
        split at hp
        · cases hp
        · exact hp
      simp only [Option.map_some, reduceCtorEq, if_false]
      exact ⟨by rw [← look_put hty hkeys hkeys' (fun k => write_val hg.unshared hf v k)], trivial⟩
  | remove n =>
    simp only [Call.op, World.step, Op.valid, hi, decide_true, Bool.true_eq_false, if_false, Call.spec] at hkeys' ⊢
    obtain ⟨h1, h2, h3, h4⟩ := remove_val hty hk n
    rw [h1, look_put hty hkeys hkeys' h2]
    refine ⟨?_, h3 i⟩
    cases hh : (w.dbs i).objs.has (toKey ty n) with
    | false =>
      rw [if_pos ((look_none hty hkeys i n).2 hh)]
      congr 1
      funext x
      unfold put; split
      · rename_i e
        unfold SameName at e
        rw [eq_comm, look_none hty hkeys, e]; exact hh
      · rfl
    | true =>
      rw [if_neg]
      rw [look_none hty hkeys, hh]; simp
  | clear =>
    simp only [Call.op, World.step, Op.valid, hi, decide_true, Bool.true_eq_false, if_false, Call.spec] at hkeys' ⊢
    obtain ⟨h1, h2, h3⟩ := clear_val hg.wf hk
    refine ⟨?_, h3⟩
    rw [h1]
    congr 1
    funext x
    rw [look_eq hty hkeys', h2]
  | rename o n ow =>
    simp only [Call.op, World.step, Op.valid, hi, decide_true, Bool.true_eq_false, if_false, Call.spec] at hkeys' ⊢
    have he : w.rename ty i o n ow =
        if ty = .equations then (w, .err) else if (w.dbs i).objs = [] then (w, .ok false)
        else if checkName ty (toKey ty n) = false then (w, .err)
        else if (w.dbs i).objs.has (toKey ty o) = false then (w, .err)
        else if ow = false ∧ (w.dbs i).objs.has (toKey ty n) = true then (w, .err)
        else match (w.dbs i).getObjPtr ty (toKey ty o) with
          | none => (w, .err)
          | some a => (w.renameCore ty i i (toKey ty o) (toKey ty n) a, .ok true) := by
      unfold World.rename renameCore
      simp only [topOf_self hk, contains_of_ne hty, toKey_idem]
      cases (w.dbs i).getObjPtr ty (toKey ty o) <;> rfl
    rw [he] at hkeys' ⊢
    by_cases hq : ty = .equations
    · simp only [hq, if_true]; exact ⟨trivial, trivial⟩
    · by_cases hm : (w.dbs i).objs = []
      · have := (objs_empty hty hkeys i).1 hm
        simp only [hq, hm, if_true, if_false, this, implies_true]
        exact ⟨trivial, trivial⟩
      · have hm' : ¬ ∀ x, w.look ty i x = none := fun h => hm ((objs_empty hty hkeys i).2 h)
        simp only [hq, hm, hm', if_false] at hkeys' ⊢
        simp only [valid_iff, look_none hty hkeys, Ne]
        cases h1 : checkName ty (toKey ty n) with
        | false => simp
        | true =>
          cases h2 : (w.dbs i).objs.has (toKey ty o) with
          | false => simp
          | true =>
            obtain ⟨a, ha⟩ := (SMap.has_iff _ _).1 h2
            have hv := hkeys i _ ((SMap.has_iff_mem _ _).1 h2)
            have hp : (w.dbs i).getObjPtr ty (toKey ty o) = some a := by
              rw [getObjPtr_of_ne hty, toKey_idem, if_neg, ha]
              intro e; rw [e] at hv; simp [checkName] at hv
            simp only [h1, h2, hp, Bool.true_eq_false, if_false] at hkeys' ⊢
            by_cases h3 : ow = false ∧ (w.dbs i).objs.has (toKey ty n) = true
            · simp only [h3, and_self, if_true]
              rw [if_pos]
              · exact ⟨rfl, trivial⟩
              · right; right; exact ⟨trivial, by simp⟩
            · simp only [h3, if_false] at hkeys' ⊢
              rw [if_neg]
              · constructor
                · show ((w.renameCore ty i i (toKey ty o) (toKey ty n) a).look ty i, _) = _
                  congr 1
                  funext x
                  have hkeys2 : (w.renameCore ty i i (toKey ty o) (toKey ty n) a).KeysOk ty := hkeys'
                  rw [look_eq hty hkeys2, rename_val hg.wf hk ha]
                  unfold put SameName
                  rw [look_eq hty hkeys, look_eq hty hkeys]
                  repeat' split
                  all_goals rfl
                · have hnt : i ∉ w.childrenOf i := by
                    have := root_not_mem_children hg.wf i
                    rwa [rootOf_of_ne hk] at this
                  have := renameCore_dbs ty w i i (toKey ty o) (toKey ty n) a hnt i
                  show ((w.renameCore ty i i (toKey ty o) (toKey ty n) a).dbs i).kind = _
                  rw [this, if_pos (Or.inl rfl)]
              · rintro (h | h | h)
                · exact h trivial
                · cases h
                · exact h3 ⟨h.1, by simpa using h.2⟩

end World

/-- C05. In every reachable world, for every workspace that is not a subset: after any list of calls the content of the
    workspace and all answers are those of the finite map.
    Missing for the full claim: comments, for which it is false (see below). -/
theorem C05_finite_map_partial {T : Type} [Inhabited T] (ty : ObjType) (hty : ty ≠ .comments) (before : List (Op T)) (i : Nat)
    (hi : i < ((World.init : World T).run ty before).nDbs)
    (hk : (((World.init : World T).run ty before).dbs i).kind ≠ .subset) (calls : List (Call T)) :
    let w := (World.init : World T).run ty before
    ((w.run ty (calls.map (Call.op i))).look ty i, w.answers ty (calls.map (Call.op i)))
      = Call.specs ty (w.look ty i) calls := by
  have hg := (good_init (T := T) ty).run hty before
  simp only
  generalize (World.init : World T).run ty before = w at *
  clear before
  induction calls generalizing w with
  | nil => rfl
  | cons c cs ih =>
    obtain ⟨h1, h2⟩ := call_refines hty hg hi hk c
    have hi' : i < (w.step ty (c.op i)).1.nDbs := Nat.lt_of_lt_of_le hi (step_steps ty w _).nDbs_le
    have := ih _ hi' (by rw [h2]; exact hk) (hg.step hty (c.op i))
    simp only [Call.specs, List.map_cons, World.answers]
    rw [← h1]
    simp only [Prod.ext_iff] at this ⊢
    exact ⟨this.1, by rw [this.2]⟩

/-- Failed calls (exceptions) change nothing a user can see in the workspace. -/
theorem C05_failed_calls_partial {T : Type} [Inhabited T] (ty : ObjType) (hty : ty ≠ .comments) (before : List (Op T)) (i : Nat)
    (hi : i < ((World.init : World T).run ty before).nDbs)
    (hk : (((World.init : World T).run ty before).dbs i).kind ≠ .subset) (c : Call T)
    (hf : ((((World.init : World T).run ty before)).step ty (c.op i)).2 = .err) :
    let w := (World.init : World T).run ty before
    (w.step ty (c.op i)).1.look ty i = w.look ty i := by
  have hg := (good_init (T := T) ty).run hty before
  simp only
  generalize (World.init : World T).run ty before = w at *
  obtain ⟨h1, -⟩ := call_refines hty hg hi hk c
  rw [Prod.ext_iff] at h1
  simp only at h1
  rw [h1.1]
  rw [h1.2] at hf
  revert hf
  generalize w.look ty i = m
  cases c <;> simp only [Call.spec]
  all_goals (repeat' split)
  all_goals simp

/-- A call on a workspace of another family (not this workspace, not one of its subsets) is not seen in this one. -/
theorem C05_other_workspaces {T : Type} [Inhabited T] (ty : ObjType) (before : List (Op T)) (i : Nat)
    (hi : i < ((World.init : World T).run ty before).nDbs) (op : Op T)
    (ho : ∀ x ∈ op.acts, ((World.init : World T).run ty before).rootOf x ≠ ((World.init : World T).run ty before).rootOf i) :
    let w := (World.init : World T).run ty before
    (w.step ty op).1.look ty i = w.look ty i := by
  have hw := run_wf ty (WF_init (T := T)) before
  simp only
  generalize (World.init : World T).run ty before = w at *
  have hs := step_steps ty w op
  obtain ⟨h1, h2, -⟩ := hs.frame hw hi (by
    intro x hx
    rcases hx with hx | hx
    · exact ho x hx
    · subst hx
      rw [rootOf_ge hw (Nat.le_refl _)]
      have := rootOf_lt hw hi; omega)
  funext x
  unfold look
  rw [h1]
  cases h : (w.dbs i).getObjPtr ty x with
  | none => rfl
  | some a =>
    obtain ⟨k, hk⟩ := getObjPtr_some h
    simp [h2 k a hk]

/-! ## Comments are not a finite map -/

/-- Two comments whose names differ by case only: both are stored, reading the first name gives the second object. -/
theorem C05_comments_counterexample :
    let w := (World.init : World Nat).run .comments [.create true, .set 0 "AB".toList 1, .set 0 "ab".toList 2]
    (w.dbs 0).objs.keys = ["AB".toList, "ab".toList] ∧ w.look .comments 0 "AB".toList = some 2 := by decide

/-- Even for other types, duplicating an object of a workspace under another spelling of its own name removes it. -/
theorem C05_duplicate_loses_object_counterexample :
    let w := (World.init : World Nat).run .variables [.create true, .set 0 "A".toList 1]
    w.look .variables 0 "A".toList = some 1 ∧
    (w.step .variables (.duplicate 0 0 "A".toList "a".toList)).2 = .ok false ∧
    (w.step .variables (.duplicate 0 0 "A".toList "a".toList)).1.look .variables 0 "A".toList = none := by decide

/-! A concrete history meeting the hypotheses. -/
example : let w := (World.init : World Nat).run .variables [.create true, .set 0 "A".toList 1, .subset 0 none false]
    0 < w.nDbs ∧ (w.dbs 0).kind ≠ .subset ∧
    (w.run .variables ([Call.set "b".toList 2, .rename "A".toList "c".toList false, .remove "B".toList].map (Call.op 0))).look
      .variables 0 "C".toList = some 1 := by decide

end Iode
