import Verif.Model.Kdb
import Verif.Lemmas.Names
import Verif.Lemmas.SMap

/-!
# Elementary steps of the workspace operations and the invariants they keep
-/
namespace Iode
namespace World
variable {T : Type}

/-! ## Look-up -/

theorem contains_of_ne {ty : ObjType} (h : ty ≠ .comments) (d : Db) (name : Name) :
    d.contains ty name = d.objs.has (toKey ty name) := by
  cases ty <;> first | exact absurd rfl h | rfl

theorem contains_key {ty : ObjType} (h : ty ≠ .comments) (d : Db) {key : Name} (hk : toKey ty key = key) :
    d.contains ty key = d.objs.has key := by
  rw [contains_of_ne h, hk]

theorem getKey_of_ne {ty : ObjType} (h : ty ≠ .comments) (d : Db) (name : Name) :
    d.getKey ty name = if d.objs.has (toKey ty name) then toKey ty name else [] := by
  have : d.getKey ty name = if d.contains ty (toKey ty name) then toKey ty name else [] := by
    cases ty <;> first | exact absurd rfl h | rfl
  rw [this, contains_of_ne h, toKey_idem]

theorem foldl_last_mem (p : Name → Bool) (l : List Name) (acc : Name) :
    l.foldl (fun acc k => if p k then k else acc) acc = acc ∨
      l.foldl (fun acc k => if p k then k else acc) acc ∈ l := by
  induction l generalizing acc with
  | nil => exact Or.inl rfl
  | cons k ks ih =>
    simp only [List.foldl_cons, List.mem_cons]
    rcases ih (if p k then k else acc) with h | h
    · rw [h]
      split
      · exact Or.inr (Or.inl rfl)
      · exact Or.inl rfl
    · exact Or.inr (Or.inr h)

/-- The key found is one of the keys of the database. -/
theorem getKey_mem {ty : ObjType} (d : Db) (name : Name) (h : d.getKey ty name ≠ []) :
    d.getKey ty name ∈ d.objs.keys := by
  by_cases hc : ty = .comments
  · subst hc
    unfold Db.getKey at *
    rcases foldl_last_mem (fun k => toLower k == toLower (trim name)) d.objs.keys [] with h1 | h1
    · exact absurd h1 h
    · exact h1
  · rw [getKey_of_ne hc] at *
    split at h
    · rename_i hh
      rw [if_pos hh, ← SMap.has_iff_mem]; exact hh
    · exact absurd rfl h

theorem getObjPtr_some {ty : ObjType} {d : Db} {name : Name} {a : Nat} (h : d.getObjPtr ty name = some a) :
    ∃ k, d.objs.find k = some a := by
  unfold Db.getObjPtr at h
  simp only at h
  split at h
  · cases h
  · exact ⟨_, h⟩

theorem getObjPtr_of_ne {ty : ObjType} (h : ty ≠ .comments) (d : Db) (name : Name) :
    d.getObjPtr ty name = if toKey ty name = [] then none else d.objs.find (toKey ty name) := by
  unfold Db.getObjPtr
  simp only
  rw [getKey_of_ne h]
  cases hh : d.objs.has (toKey ty name) with
  | true => simp
  | false =>
    rw [SMap.has_false_iff] at hh
    simp [hh]

/-! ## Databases and their top-level database -/

/-- The number of the top-level database of `i`. -/
def rootOf (w : World T) (i : Nat) : Nat :=
  match (w.dbs i).kind with
  | .subset => (w.dbs i).parent.getD i
  | _ => i

/-- Well-formedness of links, addresses and sharing. -/
structure WF (w : World T) : Prop where
  blank : ∀ i, w.nDbs ≤ i → w.dbs i = Db.empty .standalone
  par : ∀ i, (w.dbs i).kind = .subset → ∃ p, p < w.nDbs ∧ (w.dbs i).parent = some p ∧ (w.dbs p).kind ≠ .subset
  kids : ∀ i c, c ∈ (w.dbs i).children → c < w.nDbs ∧ (w.dbs c).kind = .subset ∧ (w.dbs c).parent = some i
  addr : ∀ i k a, (w.dbs i).objs.find k = some a → a < w.nHeap
  /-- an object is only shared inside one family -/
  sep : ∀ i j k l a, (w.dbs i).objs.find k = some a → (w.dbs j).objs.find l = some a → w.rootOf i = w.rootOf j

theorem WF.lt_of_kid {w : World T} (h : w.WF) {i c : Nat} (hc : c ∈ (w.dbs i).children) : i < w.nDbs := by
  apply Decidable.byContradiction
  intro hn
  rw [h.blank i (by omega)] at hc
  simp [Db.empty] at hc

theorem WF.kid_parent_kind {w : World T} (h : w.WF) {i c : Nat} (hc : c ∈ (w.dbs i).children) :
    (w.dbs i).kind ≠ .subset := by
  obtain ⟨h1, h2, h3⟩ := h.kids i c hc
  obtain ⟨p, hp, hpp, hk⟩ := h.par c h2
  rw [h3] at hpp; cases hpp
  exact hk

theorem rootOf_of_ne {w : World T} {i : Nat} (h : (w.dbs i).kind ≠ .subset) : w.rootOf i = i := by
  unfold rootOf
  split
  · rename_i hh; exact absurd hh h
  · rfl

theorem rootOf_of_subset {w : World T} {i p : Nat} (h : (w.dbs i).kind = .subset)
    (hp : (w.dbs i).parent = some p) : w.rootOf i = p := by
  unfold rootOf; rw [h, hp]; rfl

theorem topOf_eq {w : World T} (h : w.WF) (i : Nat) : w.topOf i = some (w.rootOf i) := by
  unfold topOf rootOf
  cases hk : (w.dbs i).kind with
  | subset =>
    obtain ⟨p, -, hp, -⟩ := h.par i hk
    simp [hp]
  | global => rfl
  | standalone => rfl

theorem topOf_some {w : World T} {i top : Nat} (h : w.topOf i = some top) : w.rootOf i = top := by
  unfold topOf at h; unfold rootOf
  split at h
  · rename_i hk; simp [hk, h]
  · rename_i hk; cases h
    all_goals first | rfl | (split; rename_i h2; exact absurd h2 hk; rfl)

theorem root_kind {w : World T} (h : w.WF) (i : Nat) : (w.dbs (w.rootOf i)).kind ≠ .subset := by
  by_cases hk : (w.dbs i).kind = .subset
  · obtain ⟨p, -, hp, hpk⟩ := h.par i hk
    rw [rootOf_of_subset hk hp]; exact hpk
  · rw [rootOf_of_ne hk]; exact hk

theorem rootOf_rootOf {w : World T} (h : w.WF) (i : Nat) : w.rootOf (w.rootOf i) = w.rootOf i :=
  rootOf_of_ne (root_kind h i)

theorem rootOf_lt {w : World T} (h : w.WF) {i : Nat} (hi : i < w.nDbs) : w.rootOf i < w.nDbs := by
  by_cases hk : (w.dbs i).kind = .subset
  · obtain ⟨p, hpl, hp, -⟩ := h.par i hk
    rw [rootOf_of_subset hk hp]; exact hpl
  · rw [rootOf_of_ne hk]; exact hi

theorem rootOf_ge {w : World T} (h : w.WF) {i : Nat} (hi : w.nDbs ≤ i) : w.rootOf i = i := by
  apply rootOf_of_ne
  rw [h.blank i hi]; simp [Db.empty]

theorem childrenOf_eq {w : World T} (h : w.WF) (i : Nat) : w.childrenOf i = (w.dbs (w.rootOf i)).children := by
  unfold childrenOf rootOf
  cases hk : (w.dbs i).kind with
  | subset =>
    obtain ⟨p, -, hp, -⟩ := h.par i hk
    simp [hp]
  | global => rfl
  | standalone => rfl

theorem mem_childrenOf {w : World T} (h : w.WF) {i c : Nat} (hc : c ∈ w.childrenOf i) :
    c < w.nDbs ∧ (w.dbs c).kind = .subset ∧ w.rootOf c = w.rootOf i := by
  rw [childrenOf_eq h] at hc
  obtain ⟨h1, h2, h3⟩ := h.kids _ _ hc
  exact ⟨h1, h2, rootOf_of_subset h2 h3⟩

/-! ## Elementary steps -/

/-- A new object stored under `key` in database `i` (and in the family of `i` as `set_obj_ptr_no_check` does). -/
def allocPut (ty : ObjType) (w : World T) (i top : Nat) (key : Name) (v : T) : World T :=
  ((w.alloc v).1).setNoCheck ty i top key w.nHeap

/-- Effect of a successful `remove`. -/
def removeCore (w : World T) (i top : Nat) (key : Name) : World T :=
  (w.modDb top (fun d => { d with objs := d.objs.erase key })).modAll (w.childrenOf i)
    (fun d => { d with objs := d.objs.erase key })

/-- Effect of a successful `rename`. -/
def renameCore (ty : ObjType) (w : World T) (i top : Nat) (okey nkey : Name) (a : Nat) : World T :=
  (w.modDb top (fun d => { d with objs := (d.objs.erase okey).insert nkey a })).modAll (w.childrenOf i) (fun d =>
    if d.contains ty okey then { d with objs := (d.objs.erase okey).insert nkey a } else d)

/-- Effect of a successful shallow `get_subset`. -/
def shallowCore (w : World T) (top : Nat) (m : SMap Nat) : World T :=
  (((w.create .subset).1).modDb w.nDbs (fun d => { d with objs := m, parent := some top })).modDb top
    (fun d => { d with children := w.nDbs :: d.children })

/-- Effect of a write through an object pointer. -/
def writeCore (w : World T) (a : Nat) (v : T) : World T :=
  { w with heap := fun b => if b = a then v else w.heap b }

/-- What a sequence of steps is allowed to do: rename onto a name in use, clear a registered subset. -/
structure Flags where
  overwrite : Bool
  clearSub : Bool

/-- The elementary steps; the second argument is the database that acts. -/
inductive Prim (ty : ObjType) (fl : Flags) : World T → Nat → World T → Prop
  | alloc {w : World T} {i : Nat} (v : T) : Prim ty fl w i (w.alloc v).1
  | put {w : World T} {i top : Nat} {key : Name} (v : T) (hi : i < w.nDbs) (ht : w.topOf i = some top)
      (hk : checkName ty key = true) : Prim ty fl w i (w.allocPut ty i top key v)
  | remove {w : World T} {i top : Nat} {key : Name} (hi : i < w.nDbs) (ht : w.topOf i = some top)
      (hk : toKey ty key = key) : Prim ty fl w i (w.removeCore i top key)
  | rename {w : World T} {i top : Nat} {okey nkey : Name} {a : Nat} (hi : i < w.nDbs) (ht : w.topOf i = some top)
      (hk : checkName ty nkey = true) (ho : toKey ty okey = okey)
      (ha : (w.dbs top).getObjPtr ty okey = some a) (hc : (w.dbs i).contains ty okey = true)
      (how : fl.overwrite = false → (w.dbs top).contains ty nkey = false) : Prim ty fl w i (w.renameCore ty i top okey nkey a)
  | clear {w : World T} {i : Nat} (hi : i < w.nDbs) (hcl : fl.clearSub = false → (w.dbs i).kind ≠ .subset) : Prim ty fl w i (w.clear i).1
  | write {w : World T} {i a : Nat} {name : Name} (v : T) (ha : (w.dbs i).getObjPtr ty name = some a) :
      Prim ty fl w i (w.writeCore a v)
  | create {w : World T} {i : Nat} (g : Bool) : Prim ty fl w i (w.create (if g then .global else .standalone)).1
  | shallow {w : World T} {i top : Nat} {ks : List Name} {m : SMap Nat} (hi : i < w.nDbs) (ht : w.topOf i = some top)
      (hks : ∀ k ∈ ks, k ∈ (w.dbs i).objs.keys) (hm : shallowObjs ty (w.dbs top) ks [] = some m) :
      Prim ty fl w i (w.shallowCore top m)

/-- Finitely many elementary steps, each by a database satisfying `S`. -/
inductive Steps (ty : ObjType) (fl : Flags) (S : Nat → Prop) : World T → World T → Prop
  | refl (w : World T) : Steps ty fl S w w
  | tail {w w1 w2 : World T} {i : Nat} (h : Steps ty fl S w w1) (hi : S i) (hp : Prim ty fl w1 i w2) : Steps ty fl S w w2

theorem Steps.one {ty : ObjType} {fl : Flags} {S : Nat → Prop} {w w1 : World T} {i : Nat} (hi : S i) (hp : Prim ty fl w i w1) :
    Steps ty fl S w w1 := .tail (.refl w) hi hp

theorem Steps.trans {ty : ObjType} {fl : Flags} {S : Nat → Prop} {w w1 w2 : World T} (h1 : Steps ty fl S w w1)
    (h2 : Steps ty fl S w1 w2) : Steps ty fl S w w2 := by
  induction h2 with
  | refl => exact h1
  | tail _ hi hp ih => exact .tail ih hi hp

theorem Steps.mono {ty : ObjType} {fl : Flags} {S S' : Nat → Prop} (hS : ∀ i, S i → S' i) {w w1 : World T}
    (h : Steps ty fl S w w1) : Steps ty fl S' w w1 := by
  induction h with
  | refl => exact .refl _
  | tail _ hi hp ih => exact .tail ih (hS _ hi) hp

/-! ### Pointwise effect of the elementary steps -/

theorem putObj_putObj (key : Name) (a : Nat) (d : Db) : putObj key a (putObj key a d) = putObj key a d := by
  simp [putObj, SMap.insert_insert]

theorem allocPut_dbs (ty : ObjType) (w : World T) (i top : Nat) (key : Name) (v : T)
    (ht : w.topOf i = some top) (j : Nat) :
    (w.allocPut ty i top key v).dbs j =
      if j = i ∨ j = top ∨ (j ∈ w.childrenOf i ∧ (w.dbs j).contains ty key = true)
      then putObj key w.nHeap (w.dbs j) else w.dbs j := by
  have hkind : (w.dbs i).kind ≠ .subset → top = i := by
    intro h
    have := topOf_some ht
    rw [rootOf_of_ne h] at this; exact this.symm
  have e1 : ∀ j, (if ((w.alloc v).1.dbs i).kind = DbKind.subset
        then ((w.alloc v).1.modDb i (putObj key w.nHeap)).modDb top (putObj key w.nHeap)
        else (w.alloc v).1.modDb i (putObj key w.nHeap)).dbs j =
      if j = i ∨ j = top then putObj key w.nHeap (w.dbs j) else w.dbs j := by
    intro j
    by_cases hs : (w.dbs i).kind = .subset
    · have : ((w.alloc v).1.dbs i).kind = DbKind.subset := hs
      rw [if_pos this]
      simp only [modDb, alloc]
      by_cases h1 : j = top
      · subst h1
        by_cases h2 : j = i
        · subst h2; simp [putObj_putObj]
        · simp [h2]
      · by_cases h2 : j = i
        · subst h2; simp [h1]
        · simp [h1, h2]
    · have : ¬ ((w.alloc v).1.dbs i).kind = DbKind.subset := hs
      rw [if_neg this]
      have ht' := hkind hs
      subst ht'
      simp only [modDb, alloc, or_self]
      split
      · rename_i h; subst h; rfl
      · rfl
  unfold allocPut setNoCheck
  have hc : ((w.alloc v).1).childrenOf i = w.childrenOf i := rfl
  simp only [hc, modAll]
  rw [e1 j]
  by_cases h1 : j = i ∨ j = top
  · have h2 : j = i ∨ j = top ∨ (j ∈ w.childrenOf i ∧ (w.dbs j).contains ty key = true) := by
      rcases h1 with h | h
      · exact Or.inl h
      · exact Or.inr (Or.inl h)
    rw [if_pos h1, if_pos h2]
    split
    · split
      · exact putObj_putObj _ _ _
      · rfl
    · rfl
  · rw [if_neg h1]
    by_cases h3 : j ∈ w.childrenOf i
    · rw [if_pos h3]
      by_cases h4 : (w.dbs j).contains ty key = true
      · rw [if_pos h4, if_pos (Or.inr (Or.inr ⟨h3, h4⟩))]
      · rw [if_neg h4, if_neg]
        rintro (h | h | h)
        · exact h1 (Or.inl h)
        · exact h1 (Or.inr h)
        · exact h4 h.2
    · rw [if_neg h3, if_neg]
      rintro (h | h | h)
      · exact h1 (Or.inl h)
      · exact h1 (Or.inr h)
      · exact h3 h.1

theorem removeCore_dbs (w : World T) (i top : Nat) (key : Name) (j : Nat) :
    (w.removeCore i top key).dbs j =
      if j = top ∨ j ∈ w.childrenOf i then { w.dbs j with objs := (w.dbs j).objs.erase key } else w.dbs j := by
  have he : ∀ m : SMap Nat, (m.erase key).erase key = m.erase key := by
    intro m; simp [SMap.erase]
  unfold removeCore
  simp only [modDb, modAll]
  by_cases h1 : j = top
  · subst h1
    simp [he]
  · by_cases h2 : j ∈ w.childrenOf i <;> simp [h1, h2]

theorem renameCore_dbs (ty : ObjType) (w : World T) (i top : Nat) (okey nkey : Name) (a : Nat)
    (hd : top ∉ w.childrenOf i) (j : Nat) :
    (w.renameCore ty i top okey nkey a).dbs j =
      if j = top ∨ (j ∈ w.childrenOf i ∧ (w.dbs j).contains ty okey = true)
      then { w.dbs j with objs := ((w.dbs j).objs.erase okey).insert nkey a } else w.dbs j := by
  unfold renameCore
  simp only [modDb, modAll]
  by_cases h1 : j = top
  · subst h1
    simp [hd]
  · by_cases h2 : j ∈ w.childrenOf i <;> simp [h1, h2]

theorem clear_dbs {w : World T} (h : w.WF) (i : Nat) (j : Nat) :
    (w.clear i).1.dbs j =
      if (w.dbs i).kind = .subset then
        (if j = i then { w.dbs j with objs := [] }
         else if j = w.rootOf i then { w.dbs j with children := (w.dbs j).children.filter (· ≠ i) }
         else w.dbs j)
      else
        (if j = i then { w.dbs j with children := [], objs := [] }
         else if j ∈ (w.dbs i).children then { w.dbs j with kind := .standalone, objs := [] }
         else w.dbs j) := by
  unfold clear
  cases hk : (w.dbs i).kind with
  | subset =>
    obtain ⟨p, hp, hpp, hpk⟩ := h.par i hk
    have hne : p ≠ i := by intro he; subst he; exact hpk hk
    rw [rootOf_of_subset hk hpp]
    simp only [hpp, modDb, if_true]
    by_cases h1 : j = i
    · subst h1; simp [Ne.symm hne]
    · simp only [h1, if_false]
      by_cases h2 : j = p
      · subst h2; simp
      · simp [h2]
  | global =>
    have hni : i ∉ (w.dbs i).children := by
      intro hc; exact h.kid_parent_kind hc (h.kids _ _ hc).2.1
    simp only [modDb, modAll, reduceCtorEq, if_false]
    by_cases h1 : j = i
    · subst h1; simp [hni]
    · simp [h1]
  | standalone =>
    have hni : i ∉ (w.dbs i).children := by
      intro hc; exact h.kid_parent_kind hc (h.kids _ _ hc).2.1
    simp only [modDb, modAll, reduceCtorEq, if_false]
    by_cases h1 : j = i
    · subst h1; simp [hni]
    · simp [h1]

theorem create_dbs (w : World T) (kind : DbKind) (j : Nat) :
    (w.create kind).1.dbs j = if j = w.nDbs then Db.empty kind else w.dbs j := rfl

theorem shallowCore_dbs {w : World T} {top : Nat} (m : SMap Nat) (ht : top < w.nDbs) (j : Nat) :
    (w.shallowCore top m).dbs j =
      if j = w.nDbs then ⟨.subset, some top, [], m⟩
      else if j = top then { w.dbs j with children := w.nDbs :: (w.dbs j).children } else w.dbs j := by
  have hne : top ≠ w.nDbs := by omega
  unfold shallowCore
  simp only [modDb, create]
  by_cases h1 : j = w.nDbs
  · subst h1
    have : ¬ w.nDbs = top := fun h => hne h.symm
    simp [this, Db.empty]
  · by_cases h2 : j = top
    · subst h2; simp [h1]
    · simp [h1, h2]

/-- Objects of a shallow copy are objects of the source. -/
theorem shallowObjs_find {ty : ObjType} {src : Db} {ks : List Name} {m m0 : SMap Nat}
    (h : shallowObjs ty src ks m0 = some m) (k : Name) (a : Nat) (hk : m.find k = some a) :
    m0.find k = some a ∨ (k ∈ ks ∧ src.getObjPtr ty k = some a) := by
  induction ks generalizing m0 with
  | nil => simp only [shallowObjs, Option.some.injEq] at h; subst h; exact Or.inl hk
  | cons k' ks ih =>
    simp only [shallowObjs] at h
    split at h
    · split at h
      · cases h
      · rename_i b hb
        rcases ih h with h1 | h1
        · rw [SMap.find_insert] at h1
          split at h1
          · rename_i he; subst he; cases h1
            exact Or.inr ⟨by simp, hb⟩
          · exact Or.inl h1
        · exact Or.inr ⟨List.mem_cons_of_mem _ h1.1, h1.2⟩
    · cases h

/-! ## Elementary steps keep the world well-formed -/

theorem WF_init [Inhabited T] : (init : World T).WF := by
  refine ⟨fun i _ => rfl, ?_, ?_, ?_, ?_⟩
  · intro i h; simp [init, Db.empty] at h
  · intro i c h; simp [init, Db.empty] at h
  · intro i k a h; simp [init, Db.empty] at h
  · intro i j k l a h; simp [init, Db.empty] at h

theorem put_find (key : Name) (a : Nat) (d : Db) (k : Name) :
    (putObj key a d).objs.find k = if k = key then some a else d.objs.find k := by
  simp [putObj, SMap.find_insert]

/-- A change of objects only keeps links. -/
theorem WF.of_objs {w w' : World T} (h : w.WF) (hn : w'.nDbs = w.nDbs)
    (hb : ∀ i, w.nDbs ≤ i → (w'.dbs i).objs = [])
    (hk : ∀ i, (w'.dbs i).kind = (w.dbs i).kind ∧ (w'.dbs i).parent = (w.dbs i).parent ∧
      (w'.dbs i).children = (w.dbs i).children)
    (ha : ∀ i k a, (w'.dbs i).objs.find k = some a → a < w'.nHeap)
    (hs : ∀ i j k l a, (w'.dbs i).objs.find k = some a → (w'.dbs j).objs.find l = some a → w.rootOf i = w.rootOf j) :
    w'.WF := by
  have hr : ∀ i, w'.rootOf i = w.rootOf i := by
    intro i; unfold rootOf; rw [(hk i).1, (hk i).2.1]
  refine ⟨?_, ?_, ?_, ha, ?_⟩
  · intro i hi
    rw [hn] at hi
    have h0 := h.blank i hi
    obtain ⟨k1, k2, k3⟩ := hk i
    have k4 := hb i hi
    rw [h0] at k1 k2 k3
    cases hd : w'.dbs i with
    | mk kind parent children objs =>
      rw [hd] at k1 k2 k3 k4
      simp only at k1 k2 k3 k4
      subst k1; subst k2; subst k3; subst k4; rfl
  · intro i hi
    rw [(hk i).1] at hi
    obtain ⟨p, h1, h2, h3⟩ := h.par i hi
    exact ⟨p, by rw [hn]; exact h1, by rw [(hk i).2.1]; exact h2, by rw [(hk p).1]; exact h3⟩
  · intro i c hc
    rw [(hk i).2.2] at hc
    obtain ⟨h1, h2, h3⟩ := h.kids i c hc
    exact ⟨by rw [hn]; exact h1, by rw [(hk c).1]; exact h2, by rw [(hk c).2.1]; exact h3⟩
  · intro i j k l a h1 h2
    rw [hr, hr]; exact hs i j k l a h1 h2

theorem root_not_mem_children {w : World T} (h : w.WF) (i : Nat) : w.rootOf i ∉ w.childrenOf i := by
  intro hc
  exact root_kind h i (mem_childrenOf h hc).2.1

theorem Prim.wf {ty : ObjType} {fl : Flags} {w w' : World T} {i : Nat} (h : w.WF) (hp : Prim ty fl w i w') : w'.WF := by
  cases hp with
  | alloc v =>
    refine h.of_objs rfl (fun i hi => by show (w.dbs i).objs = []; rw [h.blank i hi]; rfl) (fun i => ⟨rfl, rfl, rfl⟩) ?_
      (fun i j k l a h1 h2 => h.sep i j k l a h1 h2)
    intro i k a hf
    exact Nat.lt_succ_of_lt (h.addr i k a hf)
  | @put top key v hi ht hk =>
    have hd := allocPut_dbs ty w i top key v ht
    have hroot := topOf_some ht
    -- every database that gets the new object is in the family of i
    have hfam : ∀ j, (j = i ∨ j = top ∨ (j ∈ w.childrenOf i ∧ (w.dbs j).contains ty key = true)) →
        w.rootOf j = w.rootOf i ∧ j < w.nDbs := by
      rintro j (rfl | rfl | ⟨h1, h2⟩)
      · exact ⟨rfl, hi⟩
      · rw [← hroot]; exact ⟨rootOf_rootOf h _, rootOf_lt h hi⟩
      · exact ⟨(mem_childrenOf h h1).2.2, (mem_childrenOf h h1).1⟩
    have hfind : ∀ j k a, ((w.allocPut ty i top key v).dbs j).objs.find k = some a →
        (a = w.nHeap ∧ w.rootOf j = w.rootOf i) ∨ (w.dbs j).objs.find k = some a := by
      intro j k a hf
      rw [hd j] at hf
      split at hf
      · rename_i hj
        rw [put_find] at hf
        split at hf
        · cases hf; exact Or.inl ⟨rfl, (hfam j hj).1⟩
        · exact Or.inr hf
      · exact Or.inr hf
    have hnh : (w.allocPut ty i top key v).nHeap = w.nHeap + 1 := by
      unfold allocPut setNoCheck; simp only [modAll]; split <;> rfl
    have hnd : (w.allocPut ty i top key v).nDbs = w.nDbs := by
      unfold allocPut setNoCheck; simp only [modAll]; split <;> rfl
    refine h.of_objs hnd ?_ ?_ ?_ ?_
    · intro j hj
      rw [hd j, if_neg]
      · rw [h.blank j hj]; rfl
      · intro hh; have := (hfam j hh).2; omega
    · intro j; rw [hd j]; split <;> exact ⟨rfl, rfl, rfl⟩
    · intro j k a hf
      rw [hnh]
      rcases hfind j k a hf with ⟨rfl, -⟩ | hf
      · omega
      · exact Nat.lt_succ_of_lt (h.addr j k a hf)
    · intro j1 j2 k l a h1 h2
      rcases hfind j1 k a h1 with ⟨rfl, hr1⟩ | h1
      · rcases hfind j2 l _ h2 with ⟨-, hr2⟩ | h2
        · rw [hr1, hr2]
        · have := h.addr _ _ _ h2; omega
      · rcases hfind j2 l _ h2 with ⟨rfl, hr2⟩ | h2
        · have := h.addr _ _ _ h1; omega
        · exact h.sep j1 j2 k l a h1 h2
  | @remove top key hi ht hk =>
    have hd := removeCore_dbs w i top key
    have hfind : ∀ j k a, ((w.removeCore i top key).dbs j).objs.find k = some a → (w.dbs j).objs.find k = some a := by
      intro j k a hf
      rw [hd j] at hf
      split at hf
      · simp only [SMap.find_erase] at hf
        split at hf
        · cases hf
        · exact hf
      · exact hf
    refine h.of_objs rfl ?_ ?_ ?_ ?_
    · intro j hj
      rw [hd j]
      rw [h.blank j hj]
      split <;> simp [Db.empty, SMap.erase]
    · intro j; rw [hd j]; split <;> exact ⟨rfl, rfl, rfl⟩
    · intro j k a hf; exact h.addr j k a (hfind j k a hf)
    · intro j1 j2 k l a h1 h2; exact h.sep _ _ _ _ _ (hfind _ _ _ h1) (hfind _ _ _ h2)
  | @rename top okey nkey a hi ht hk ho ha hc how =>
    have hroot := topOf_some ht
    have hnt : top ∉ w.childrenOf i := by rw [← hroot]; exact root_not_mem_children h i
    have hd := renameCore_dbs ty w i top okey nkey a hnt
    obtain ⟨k0, hk0⟩ := getObjPtr_some ha
    have hfam : ∀ j, (j = top ∨ (j ∈ w.childrenOf i ∧ (w.dbs j).contains ty okey = true)) →
        w.rootOf j = w.rootOf top ∧ j < w.nDbs := by
      rintro j (rfl | ⟨h1, h2⟩)
      · rw [← hroot]; exact ⟨rfl, rootOf_lt h hi⟩
      · refine ⟨?_, (mem_childrenOf h h1).1⟩
        rw [(mem_childrenOf h h1).2.2, ← hroot, rootOf_rootOf h]
    have hfind : ∀ j k b, ((w.renameCore ty i top okey nkey a).dbs j).objs.find k = some b →
        (b = a ∧ w.rootOf j = w.rootOf top) ∨ (w.dbs j).objs.find k = some b := by
      intro j k b hf
      rw [hd j] at hf
      split at hf
      · rename_i hj
        simp only [SMap.find_insert, SMap.find_erase] at hf
        split at hf
        · cases hf; exact Or.inl ⟨rfl, (hfam j hj).1⟩
        · split at hf
          · cases hf
          · exact Or.inr hf
      · exact Or.inr hf
    refine h.of_objs rfl ?_ ?_ ?_ ?_
    · intro j hj
      rw [hd j, if_neg]
      · rw [h.blank j hj]; rfl
      · intro hh; have := (hfam j hh).2; omega
    · intro j; rw [hd j]; split <;> exact ⟨rfl, rfl, rfl⟩
    · intro j k b hf
      rcases hfind j k b hf with ⟨rfl, -⟩ | hf
      · exact h.addr _ _ _ hk0
      · exact h.addr j k b hf
    · intro j1 j2 k l b h1 h2
      rcases hfind j1 k b h1 with ⟨hba, hr1⟩ | h1
      · rcases hfind j2 l _ h2 with ⟨-, hr2⟩ | h2
        · rw [hr1, hr2]
        · rw [hr1]; exact h.sep _ _ _ _ _ (hba ▸ hk0) h2
      · rcases hfind j2 l _ h2 with ⟨hba, hr2⟩ | h2
        · rw [hr2]; exact h.sep _ _ _ _ _ h1 (hba ▸ hk0)
        · exact h.sep j1 j2 k l b h1 h2
  | clear hi hcl =>
    have hd := clear_dbs h i
    have hnd : (w.clear i).1.nDbs = w.nDbs := by
      unfold World.clear; split
      · split <;> rfl
      · rfl
    have hnh : (w.clear i).1.nHeap = w.nHeap := by
      unfold World.clear; split
      · split <;> rfl
      · rfl
    by_cases hk : (w.dbs i).kind = .subset
    · simp only [hk, if_true] at hd
      obtain ⟨p, hp1, hp2, hp3⟩ := h.par i hk
      have hri := rootOf_of_subset hk hp2
      have hpi : p ≠ i := by intro he; subst he; exact hp3 hk
      have hkp : ∀ j, ((w.clear i).1.dbs j).kind = (w.dbs j).kind ∧ ((w.clear i).1.dbs j).parent = (w.dbs j).parent := by
        intro j; rw [hd j]; split
        · exact ⟨rfl, rfl⟩
        · split <;> exact ⟨rfl, rfl⟩
      have hch : ∀ j c, c ∈ ((w.clear i).1.dbs j).children → c ∈ (w.dbs j).children := by
        intro j c; rw [hd j]; split
        · exact id
        · split
          · intro hc; exact (List.mem_filter.1 hc).1
          · exact id
      have hob : ∀ j k a, ((w.clear i).1.dbs j).objs.find k = some a → (w.dbs j).objs.find k = some a := by
        intro j k a; rw [hd j]; split
        · simp
        · split <;> exact id
      have hr : ∀ j, (w.clear i).1.rootOf j = w.rootOf j := by
        intro j; unfold rootOf; rw [(hkp j).1, (hkp j).2]
      refine ⟨?_, ?_, ?_, ?_, ?_⟩
      · intro j hj
        rw [hnd] at hj
        rw [hd j, if_neg (by omega), if_neg (by rw [hri]; omega)]
        exact h.blank j hj
      · intro j hj
        rw [(hkp j).1] at hj
        obtain ⟨q, h1, h2, h3⟩ := h.par j hj
        exact ⟨q, by rw [hnd]; exact h1, by rw [(hkp j).2]; exact h2, by rw [(hkp q).1]; exact h3⟩
      · intro j c hc
        obtain ⟨h1, h2, h3⟩ := h.kids j c (hch j c hc)
        exact ⟨by rw [hnd]; exact h1, by rw [(hkp c).1]; exact h2, by rw [(hkp c).2]; exact h3⟩
      · intro j k a hf; rw [hnh]; exact h.addr j k a (hob j k a hf)
      · intro j1 j2 k l a h1 h2
        rw [hr, hr]; exact h.sep _ _ _ _ _ (hob _ _ _ h1) (hob _ _ _ h2)
    · simp only [hk, if_false] at hd
      have hob : ∀ j k a, ((w.clear i).1.dbs j).objs.find k = some a →
          j ≠ i ∧ j ∉ (w.dbs i).children ∧ (w.dbs j).objs.find k = some a := by
        intro j k a; rw [hd j]; split
        · simp
        · split
          · simp
          · rename_i h1 h2; exact fun hh => ⟨h1, h2, hh⟩
      have hkd : ∀ j, ((w.clear i).1.dbs j).kind = .subset → j ∉ (w.dbs i).children ∧ (w.dbs j).kind = .subset ∧
          ((w.clear i).1.dbs j).parent = (w.dbs j).parent := by
        intro j; rw [hd j]; split
        · rename_i he; subst he; intro hh; exact absurd hh hk
        · split
          · simp
          · rename_i h1 h2; exact fun hh => ⟨h2, hh, rfl⟩
      refine ⟨?_, ?_, ?_, ?_, ?_⟩
      · intro j hj
        rw [hnd] at hj
        rw [hd j, if_neg (by omega), if_neg (fun hc => by have := (h.kids _ _ hc).1; omega)]
        exact h.blank j hj
      · intro j hj
        obtain ⟨h1, h2, h3⟩ := hkd j hj
        obtain ⟨q, q1, q2, q3⟩ := h.par j h2
        refine ⟨q, by rw [hnd]; exact q1, by rw [h3]; exact q2, ?_⟩
        intro hq
        exact q3 (hkd q hq).2.1
      · intro j c hc
        have hji : j ≠ i ∧ c ∈ (w.dbs j).children := by
          rw [hd j] at hc
          split at hc
          · simp at hc
          · rename_i hne
            split at hc <;> exact ⟨hne, hc⟩
        obtain ⟨h1, h2, h3⟩ := h.kids j c hji.2
        have hci : c ∉ (w.dbs i).children := by
          intro hcc
          have := (h.kids i c hcc).2.2
          rw [h3] at this; cases this; exact hji.1 rfl
        have hcn : c ≠ i := by intro he; subst he; exact hk h2
        refine ⟨by rw [hnd]; exact h1, ?_, ?_⟩
        · rw [hd c, if_neg hcn, if_neg hci]; exact h2
        · rw [hd c, if_neg hcn, if_neg hci]; exact h3
      · intro j k a hf; rw [hnh]; exact h.addr j k a (hob j k a hf).2.2
      · intro j1 j2 k l a h1 h2
        obtain ⟨a1, a2, a3⟩ := hob _ _ _ h1
        obtain ⟨b1, b2, b3⟩ := hob _ _ _ h2
        have e1 : ∀ j, j ≠ i → j ∉ (w.dbs i).children → (w.clear i).1.rootOf j = w.rootOf j := by
          intro j x1 x2
          unfold rootOf; rw [hd j, if_neg x1, if_neg x2]
        rw [e1 _ a1 a2, e1 _ b1 b2]
        exact h.sep _ _ _ _ _ a3 b3
  | write v ha =>
    exact h.of_objs rfl (fun i hi => by show (w.dbs i).objs = []; rw [h.blank i hi]; rfl) (fun i => ⟨rfl, rfl, rfl⟩)
      (fun i k a hf => h.addr i k a hf) (fun i j k l a h1 h2 => h.sep i j k l a h1 h2)
  | create g =>
    have hd := create_dbs w (if g then DbKind.global else DbKind.standalone)
    have hns : (Db.empty (if g then DbKind.global else DbKind.standalone)).kind ≠ .subset := by cases g <;> simp [Db.empty]
    have hr : ∀ j, (w.create (if g then DbKind.global else DbKind.standalone)).1.rootOf j = w.rootOf j := by
      intro j
      by_cases hj : j = w.nDbs
      · subst hj
        rw [rootOf_ge h (Nat.le_refl _), rootOf_of_ne]
        rw [hd]; simp only [if_true]; exact hns
      · unfold rootOf; rw [hd j, if_neg hj]
    have hob : ∀ j k a, ((w.create (if g then DbKind.global else DbKind.standalone)).1.dbs j).objs.find k = some a →
        (w.dbs j).objs.find k = some a := by
      intro j k a; rw [hd j]; split
      · simp [Db.empty]
      · exact id
    have hkd : ∀ j, ((w.create (if g then DbKind.global else DbKind.standalone)).1.dbs j).kind = .subset →
        j ≠ w.nDbs ∧ (w.dbs j).kind = .subset := by
      intro j; rw [hd j]; split
      · intro hh; exact absurd hh hns
      · rename_i hne; exact fun hh => ⟨hne, hh⟩
    refine ⟨?_, ?_, ?_, ?_, ?_⟩
    · intro j hj
      have : w.nDbs + 1 ≤ j := hj
      rw [hd j, if_neg (by omega)]; exact h.blank j (by omega)
    · intro j hj
      obtain ⟨h1, h2⟩ := hkd j hj
      obtain ⟨q, q1, q2, q3⟩ := h.par j h2
      refine ⟨q, Nat.lt_succ_of_lt q1, by rw [hd j, if_neg h1]; exact q2, fun hq => q3 (hkd q hq).2⟩
    · intro j c hc
      rw [hd j] at hc
      split at hc
      · simp [Db.empty] at hc
      · obtain ⟨h1, h2, h3⟩ := h.kids j c hc
        have : c ≠ w.nDbs := by omega
        exact ⟨Nat.lt_succ_of_lt h1, by rw [hd c, if_neg this]; exact h2, by rw [hd c, if_neg this]; exact h3⟩
    · intro j k a hf; exact h.addr j k a (hob j k a hf)
    · intro j1 j2 k l a h1 h2; rw [hr, hr]; exact h.sep _ _ _ _ _ (hob _ _ _ h1) (hob _ _ _ h2)
  | @shallow top ks m hi ht hks hm =>
    have hroot := topOf_some ht
    have htl : top < w.nDbs := by rw [← hroot]; exact rootOf_lt h hi
    have htk : (w.dbs top).kind ≠ .subset := by rw [← hroot]; exact root_kind h i
    have hd := shallowCore_dbs (w := w) m htl
    have htn : top ≠ w.nDbs := by omega
    have hr : ∀ j, j ≠ w.nDbs → (w.shallowCore top m).rootOf j = w.rootOf j := by
      intro j hj
      have e : ((w.shallowCore top m).dbs j).kind = (w.dbs j).kind ∧
          ((w.shallowCore top m).dbs j).parent = (w.dbs j).parent := by
        rw [hd j, if_neg hj]; split <;> exact ⟨rfl, rfl⟩
      unfold rootOf; rw [e.1, e.2]
    have hrn : (w.shallowCore top m).rootOf w.nDbs = top := by
      apply rootOf_of_subset
      · rw [hd, if_pos rfl]
      · rw [hd, if_pos rfl]
    have hob : ∀ j k a, ((w.shallowCore top m).dbs j).objs.find k = some a →
        ∃ j' k', (w.dbs j').objs.find k' = some a ∧ (w.shallowCore top m).rootOf j = w.rootOf j' := by
      intro j k a hf
      by_cases hj : j = w.nDbs
      · subst hj
        rw [hd, if_pos rfl] at hf
        rcases shallowObjs_find hm k a hf with h1 | h1
        · simp at h1
        · obtain ⟨k', hk'⟩ := getObjPtr_some h1.2
          exact ⟨top, k', hk', by rw [hrn, rootOf_of_ne htk]⟩
      · rw [hd j, if_neg hj] at hf
        refine ⟨j, k, ?_, hr j hj⟩
        split at hf <;> exact hf
    have hkp : ∀ j, j ≠ w.nDbs → ((w.shallowCore top m).dbs j).kind = (w.dbs j).kind ∧
        ((w.shallowCore top m).dbs j).parent = (w.dbs j).parent := by
      intro j hj; rw [hd j, if_neg hj]; split <;> exact ⟨rfl, rfl⟩
    refine ⟨?_, ?_, ?_, ?_, ?_⟩
    · intro j hj
      have : w.nDbs + 1 ≤ j := hj
      rw [hd j, if_neg (by omega), if_neg (by omega)]; exact h.blank j (by omega)
    · intro j hj
      by_cases hjn : j = w.nDbs
      · subst hjn
        refine ⟨top, Nat.lt_succ_of_lt htl, by rw [hd, if_pos rfl], ?_⟩
        rw [(hkp top htn).1]; exact htk
      · rw [(hkp j hjn).1] at hj
        obtain ⟨q, q1, q2, q3⟩ := h.par j hj
        refine ⟨q, Nat.lt_succ_of_lt q1, by rw [(hkp j hjn).2]; exact q2, ?_⟩
        rw [(hkp q (by omega)).1]; exact q3
    · intro j c hc
      rw [hd j] at hc
      split at hc
      · simp at hc
      · have hold : ∀ c, c ∈ (w.dbs j).children → c < (w.shallowCore top m).nDbs ∧
            ((w.shallowCore top m).dbs c).kind = .subset ∧ ((w.shallowCore top m).dbs c).parent = some j := by
          intro c hc
          obtain ⟨h1, h2, h3⟩ := h.kids j c hc
          have hcn : c ≠ w.nDbs := by omega
          exact ⟨Nat.lt_succ_of_lt h1, by rw [(hkp c hcn).1]; exact h2, by rw [(hkp c hcn).2]; exact h3⟩
        split at hc
        · rename_i hjt
          subst hjt
          rcases List.mem_cons.1 hc with rfl | hc
          · exact ⟨Nat.lt_succ_self _, by rw [hd, if_pos rfl], by rw [hd, if_pos rfl]⟩
          · exact hold c hc
        · exact hold c hc
    · intro j k a hf
      obtain ⟨j', k', h1, -⟩ := hob j k a hf
      exact h.addr _ _ _ h1
    · intro j1 j2 k l a h1 h2
      obtain ⟨x1, y1, z1, e1⟩ := hob _ _ _ h1
      obtain ⟨x2, y2, z2, e2⟩ := hob _ _ _ h2
      rw [e1, e2]; exact h.sep _ _ _ _ _ z1 z2

theorem Steps.wf {ty : ObjType} {fl : Flags} {S : Nat → Prop} {w w' : World T} (h : w.WF) (hs : Steps ty fl S w w') : w'.WF := by
  induction hs with
  | refl => exact h
  | tail _ _ hp ih => exact hp.wf ih

/-! ## Every call is a sequence of elementary steps -/

theorem setObjPtr_steps (ty : ObjType) {fl : Flags} {w : World T} {i : Nat} (hi : i < w.nDbs) (name : Name) (a : Nat) :
    Steps ty fl (· = i) w (w.setObjPtr ty i name a).1 := by
  unfold setObjPtr
  simp only
  split
  · exact .refl _
  · split
    · exact .refl _
    · rename_i hk
      split
      · exact .refl _
      · rename_i top ht
        split
        · exact .refl _
        · exact Steps.one rfl (Prim.put (w.heap a) hi ht (by simpa using hk))

theorem set_steps (ty : ObjType) {fl : Flags} {w : World T} {i : Nat} (hi : i < w.nDbs) (name : Name) (v : T) :
    Steps ty fl (· = i) w (w.set ty i name v).1 := by
  unfold World.set
  have h0 : Steps ty fl (· = i) w (w.alloc v).1 := Steps.one (i := i) rfl (Prim.alloc v)
  exact h0.trans (setObjPtr_steps ty (w := (w.alloc v).1) hi name _)

theorem remove_steps (ty : ObjType) {fl : Flags} {w : World T} {i : Nat} (hi : i < w.nDbs) (name : Name) :
    Steps ty fl (· = i) w (w.remove ty i name).1 := by
  unfold World.remove
  simp only
  split
  · exact .refl _
  · rename_i top ht
    split
    · exact Steps.one rfl (Prim.remove hi ht (toKey_idem ty name))
    · exact .refl _

theorem copyObjFrom_steps (ty : ObjType) {fl : Flags} {w : World T} {i : Nat} (hi : i < w.nDbs) (j : Nat) (src dst : Name) :
    Steps ty fl (· = i) w (w.copyObjFrom ty i j src dst).1 := by
  unfold copyObjFrom
  split
  · exact .refl _
  · exact setObjPtr_steps ty hi _ _

theorem allocPut_nDbs (ty : ObjType) (w : World T) (i top : Nat) (key : Name) (v : T) :
    (w.allocPut ty i top key v).nDbs = w.nDbs := by
  unfold allocPut setNoCheck; simp only [modAll]; split <;> rfl

theorem clear_nDbs (w : World T) (i : Nat) : (w.clear i).1.nDbs = w.nDbs := by
  unfold World.clear; split
  · split <;> rfl
  · rfl

/-- The number of databases never decreases. -/
theorem Prim.nDbs_le {ty : ObjType} {fl : Flags} {w w' : World T} {i : Nat} (hp : Prim ty fl w i w') : w.nDbs ≤ w'.nDbs := by
  cases hp with
  | alloc v => exact Nat.le_refl _
  | put v hi ht hk => rw [allocPut_nDbs]; exact Nat.le_refl _
  | remove => exact Nat.le_refl _
  | rename => exact Nat.le_refl _
  | clear => rw [clear_nDbs]; exact Nat.le_refl _
  | write => exact Nat.le_refl _
  | create => exact Nat.le_succ _
  | shallow => exact Nat.le_succ _

theorem Steps.nDbs_le {ty : ObjType} {fl : Flags} {S : Nat → Prop} {w w' : World T} (hs : Steps ty fl S w w') : w.nDbs ≤ w'.nDbs := by
  induction hs with
  | refl => exact Nat.le_refl _
  | tail _ _ hp ih => exact Nat.le_trans ih hp.nDbs_le

theorem modDb_kind (w : World T) (i : Nat) {f : Db → Db} (hf : ∀ d, (f d).kind = d.kind) (j : Nat) :
    ((w.modDb i f).dbs j).kind = (w.dbs j).kind := by
  simp only [modDb]; split
  · rename_i h; rw [hf, h]
  · rfl

theorem modAll_kind (w : World T) (is : List Nat) {f : Db → Db} (hf : ∀ d, (f d).kind = d.kind) (j : Nat) :
    ((w.modAll is f).dbs j).kind = (w.dbs j).kind := by
  simp only [modAll]; split
  · rw [hf]
  · rfl

/-- A database that is not a subset never becomes one. -/
theorem Prim.kind_mono {ty : ObjType} {fl : Flags} {w w' : World T} {i : Nat} (hp : Prim ty fl w i w') {j : Nat}
    (hj : j < w.nDbs) (h : (w.dbs j).kind ≠ .subset) : (w'.dbs j).kind ≠ .subset := by
  cases hp with
  | alloc v => exact h
  | @put top key v hi ht hk => rw [allocPut_dbs ty w i top key v ht j]; split <;> exact h
  | @remove top key hi ht hk => rw [removeCore_dbs]; split <;> exact h
  | rename =>
    unfold renameCore
    rw [modAll_kind, modDb_kind]
    · exact h
    · intro d; rfl
    · intro d; split <;> rfl
  | clear hi hcl =>
    unfold World.clear
    split
    · simp only
      split
      · rw [modDb_kind, modDb_kind]
        · exact h
        · intro d; rfl
        · intro d; rfl
      · rw [modDb_kind]
        · exact h
        · intro d; rfl
    · simp only
      rw [modDb_kind]
      · simp only [modAll]
        split
        · simp
        · exact h
      · intro d; rfl
  | write => exact h
  | create g => rw [create_dbs, if_neg (by omega)]; exact h
  | @shallow top ks m hi ht hks hm =>
    unfold shallowCore
    rw [modDb_kind, modDb_kind, create_dbs, if_neg (by omega)]
    · exact h
    · intro d; rfl
    · intro d; rfl

theorem Steps.kind_mono {ty : ObjType} {fl : Flags} {S : Nat → Prop} {w w' : World T} (hs : Steps ty fl S w w') {j : Nat}
    (hj : j < w.nDbs) (h : (w.dbs j).kind ≠ .subset) : (w'.dbs j).kind ≠ .subset := by
  induction hs with
  | refl => exact h
  | tail hs _ hp ih => exact hp.kind_mono (Nat.lt_of_lt_of_le hj hs.nDbs_le) ih

theorem deepCopy_steps (ty : ObjType) {fl : Flags} {w : World T} {i : Nat} (hi : i < w.nDbs) (j : Nat) (ks : List Name) :
    Steps ty fl (· = i) w (w.deepCopy ty i j ks).1 := by
  induction ks generalizing w with
  | nil => exact .refl _
  | cons k ks ih =>
    unfold deepCopy
    split
    · have h1 := copyObjFrom_steps ty (fl := fl) hi j k k
      split
      · rename_i w1 b he
        rw [he] at h1
        exact h1.trans (ih (Nat.lt_of_lt_of_le hi h1.nDbs_le))
      · rename_i w1 r _ he
        rw [he] at h1; exact h1
    · exact .refl _

theorem mergeLoop_steps (ty : ObjType) {fl : Flags} {w : World T} {i : Nat} (hi : i < w.nDbs) (j : Nat) (ow : Bool) (ks : List Name) :
    Steps ty fl (· = i) w (w.mergeLoop ty i j ow ks).1 := by
  induction ks generalizing w with
  | nil => exact .refl _
  | cons k ks ih =>
    unfold mergeLoop
    split
    · split
      · exact ih hi
      · simp only
        have h0 : Steps ty fl (· = i) w (if (w.dbs i).contains ty k = true then (w.remove ty i k).1 else w) := by
          split
          · exact remove_steps ty hi k
          · exact .refl _
        have h1 := copyObjFrom_steps ty (fl := fl) (Nat.lt_of_lt_of_le hi h0.nDbs_le) j k k
        split
        · rename_i w1 b he
          rw [he] at h1
          exact (h0.trans h1).trans (ih (Nat.lt_of_lt_of_le hi (h0.trans h1).nDbs_le))
        · rename_i w1 r _ he
          rw [he] at h1; exact h0.trans h1
    · exact ih hi

/-- The existing databases an operation acts on. -/
def Op.acts : Op T → List Nat
  | .create _ => []
  | .set i _ _ | .add i _ _ | .update i _ _ | .remove i _ | .rename i _ _ _ | .clear i
  | .modify i _ _ | .subset i _ _ | .copyObj i _ _ _ | .duplicate i _ _ _ => [i]
  | .merge i j _ c => if c then [i, j] else [i]

theorem filterNames_mem {ty : ObjType} {d : Db} {names : Option (List Name)} {ks : List Name}
    (h : filterNames ty d names = some ks) : ∀ k ∈ ks, k ∈ d.objs.keys := by
  unfold filterNames at h
  cases names with
  | none => cases h; exact fun k hk => hk
  | some names =>
    simp only at h
    split at h
    · cases h
    · cases h
      intro k hk
      obtain ⟨h1, h2⟩ := List.mem_filter.1 hk
      obtain ⟨n, -, rfl⟩ := List.mem_map.1 h1
      exact getKey_mem d n (by simpa using h2)

/-- Does the operation ask to rename over a name in use, or to clear a subset? -/
def Op.flags (ty : ObjType) (w : World T) : Op T → Flags
  | .rename i _ n ow => ⟨ow && (w.dbs (w.rootOf i)).contains ty (toKey ty n), false⟩
  | .clear i => ⟨false, decide ((w.dbs i).kind = .subset)⟩
  | .merge _ j _ c => ⟨false, c && decide ((w.dbs j).kind = .subset)⟩
  | _ => ⟨false, false⟩

theorem step_steps (ty : ObjType) (w : World T) (op : Op T) :
    Steps ty (op.flags ty w) (fun x => x ∈ op.acts ∨ x = w.nDbs) w (w.step ty op).1 := by
  unfold step
  split
  · exact .refl _
  rename_i hv
  have hone : ∀ {i : Nat} {w' : World T}, i ∈ op.acts → Steps ty (op.flags ty w) (· = i) w w' →
      Steps ty (op.flags ty w) (fun x => x ∈ op.acts ∨ x = w.nDbs) w w' := by
    intro i w' hi h
    exact h.mono (fun x hx => Or.inl (hx ▸ hi))
  cases op with
  | create g => exact Steps.one (Or.inr rfl) (Prim.create (i := w.nDbs) g)
  | set i n v =>
    simp [Op.valid] at hv
    exact hone (by simp [Op.acts]) (set_steps ty hv n v)
  | add i n v =>
    simp [Op.valid] at hv
    refine hone (by simp [Op.acts] : i ∈ _) ?_
    unfold World.add
    simp only
    split
    · exact .refl _
    · split
      · exact .refl _
      · rename_i hk
        split
        · exact .refl _
        · split
          · exact .refl _
          · split
            · exact .refl _
            · rename_i top ht
              exact Steps.one rfl (Prim.put v hv ht (by simpa using hk))
  | update i n v =>
    simp [Op.valid] at hv
    refine hone (by simp [Op.acts] : i ∈ _) ?_
    unfold World.update
    simp only
    split
    · exact set_steps ty hv _ v
    · exact .refl _
  | remove i n =>
    simp [Op.valid] at hv
    exact hone (by simp [Op.acts]) (remove_steps ty hv n)
  | rename i o n ow =>
    simp [Op.valid] at hv
    refine hone (by simp [Op.acts] : i ∈ _) ?_
    unfold World.rename
    simp only
    split
    · exact .refl _
    · split
      · exact .refl _
      · split
        · exact .refl _
        · rename_i hk
          split
          · exact .refl _
          · split
            · exact .refl _
            · rename_i top ht
              split
              · exact .refl _
              · split
                · exact .refl _
                · rename_i a ha
                  rename_i hcon _ how _
                  refine Steps.one rfl (Prim.rename hv ht (by simpa using hk) (toKey_idem ty o) ha (by simpa using hcon) ?_)
                  intro hf
                  have hf' : (ow && (w.dbs (w.rootOf i)).contains ty (toKey ty n)) = false := hf
                  rw [topOf_some ht] at hf'
                  cases ow with
                  | false => simpa using how
                  | true => simpa using hf'
  | clear i =>
    simp [Op.valid] at hv
    exact hone (by simp [Op.acts] : i ∈ _) (Steps.one rfl (Prim.clear hv (by simp [Op.flags])))
  | modify i n v =>
    refine hone (by simp [Op.acts] : i ∈ _) ?_
    unfold World.modify
    simp only
    split
    · exact .refl _
    · rename_i a ha
      exact Steps.one rfl (Prim.write v ha)
  | copyObj i j s d =>
    simp [Op.valid] at hv
    exact hone (by simp [Op.acts]) (copyObjFrom_steps ty hv.1 j s d)
  | subset i ns c =>
    simp [Op.valid] at hv
    show Steps ty _ _ w (w.getSubset ty i ns c).1
    unfold getSubset
    split
    · exact .refl _
    · rename_i ks hks
      split
      · exact .refl _
      · rename_i top ht
        split
        · simp only
          have h0 : Steps ty ((Op.subset i ns c : Op T).flags ty w) (fun x => x ∈ (Op.subset i ns c : Op T).acts ∨ x = w.nDbs) w (w.create .standalone).1 :=
            Steps.one (Or.inr rfl) (Prim.create (i := w.nDbs) false)
          have h1 := deepCopy_steps ty (fl := (Op.subset i ns c : Op T).flags ty w) (w := (w.create .standalone).1) (i := w.nDbs) (Nat.lt_succ_self _) top ks
          split
          · rename_i w2 b he
            rw [show (w.create DbKind.standalone).2 = w.nDbs from rfl] at he
            rw [he] at h1
            exact h0.trans (h1.mono (fun x hx => Or.inr hx))
          · exact .refl _
        · split
          · exact .refl _
          · rename_i m hm
            exact Steps.one (Or.inl (by simp [Op.acts] : i ∈ _)) (Prim.shallow hv ht (filterNames_mem hks) hm)
  | duplicate i j o n =>
    simp [Op.valid] at hv
    refine hone (by simp [Op.acts] : i ∈ _) ?_
    unfold World.duplicate
    simp only
    split
    · exact .refl _
    · split
      · exact .refl _
      · have h0 : Steps ty ((Op.duplicate i j o n : Op T).flags ty w) (· = i) w (if (w.dbs i).contains ty n = true then (w.remove ty i (toKey ty n)).1 else w) := by
          split
          · exact remove_steps ty hv.1 _
          · exact .refl _
        generalize (if (w.dbs i).contains ty n = true then (w.remove ty i (toKey ty n)).1 else w) = w1 at h0 ⊢
        split
        · exact h0
        · exact h0.trans (copyObjFrom_steps ty (Nat.lt_of_lt_of_le hv.1 h0.nDbs_le) j _ _)
  | merge i j ow c =>
    simp [Op.valid] at hv
    show Steps ty _ _ w (w.merge ty i j ow c).1
    unfold World.merge
    have hmem : i ∈ (Op.merge i j ow c : Op T).acts := by
      cases c <;> simp [Op.acts]
    split
    · exact .refl _
    · have h1 := mergeLoop_steps ty (fl := (Op.merge i j ow c : Op T).flags ty w) hv.1 j ow ((w.dbs j).objs.keys)
      split
      · rename_i w1 b he
        rw [he] at h1
        have h1' := hone hmem h1
        split
        · rename_i hc
          refine .tail h1' (Or.inl ?_ : _) (Prim.clear (Nat.lt_of_lt_of_le hv.2 h1.nDbs_le) ?_)
          · simp [Op.acts, hc]
          · intro hf
            refine h1.kind_mono hv.2 ?_
            simpa [Op.flags, hc] using hf
        · exact h1'
      · rename_i w1 r _ he
        rw [he] at h1
        exact hone hmem h1

theorem step_wf (ty : ObjType) {w : World T} (h : w.WF) (op : Op T) : (w.step ty op).1.WF :=
  (step_steps ty w op).wf h

theorem run_wf (ty : ObjType) {w : World T} (h : w.WF) (ops : List (Op T)) : (w.run ty ops).WF := by
  induction ops generalizing w with
  | nil => exact h
  | cons op ops ih => exact ih (step_wf ty h op)

end World
end Iode
