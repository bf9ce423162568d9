import Verif.Props.C08

/-!
# C06  A subset always shows the same object as the workspace it was taken from

Specification: `Coherent w` says that every name of a registered subset is a name of its parent and denotes the
same object there. It is proved for every history of calls that does not rename over a name already in use, and
for all types but comments; the two excluded cases (and a cleared subset, which loses its registration) break the
claim, with witnesses.
-/
namespace Iode
namespace World
variable {T : Type}

/-- Each name of a registered subset `s` of `t` denotes the same object in `t`. -/
def Coherent (w : World T) : Prop :=
  ∀ t s k a, s ∈ (w.dbs t).children → (w.dbs s).objs.find k = some a → (w.dbs t).objs.find k = some a

/-- Every subset is registered with the database it belongs to. -/
def AllRegistered (w : World T) : Prop :=
  ∀ s, (w.dbs s).kind = .subset → s ∈ (w.dbs (w.rootOf s)).children

theorem Prim.coherent {ty : ObjType} (hty : ty ≠ .comments) {fl : Flags} (hfl : fl.overwrite = false)
    {w w' : World T} {i : Nat} (hw : w.WF) (hkeys : w.KeysOk ty) (h : w.Coherent) (hp : Prim ty fl w i w') : w'.Coherent := by
  cases hp with
  | alloc v => exact h
  | @put top key v hi ht hk =>
    have hd := allocPut_dbs ty w i top key v ht
    have hkk := toKey_of_checkName hk
    intro t s k a hs hf
    have hs' : s ∈ (w.dbs t).children := by
      rw [hd t] at hs; split at hs <;> exact hs
    have hroot := topOf_some ht
    obtain ⟨-, hsk, hsp⟩ := hw.kids t s hs'
    have hst : w.rootOf s = t := rootOf_of_subset hsk hsp
    rw [hd s] at hf
    rw [hd t]
    by_cases hkey : k = key
    · subst hkey
      split at hf
      · rename_i hc
        -- s received the object, hence is in the family of i, hence t = top received it
        have htt : t = top := by
          rcases hc with rfl | rfl | ⟨h1, -⟩
          · rw [← hst, hroot]
          · exact absurd hsk (by rw [← hroot]; exact root_kind hw i)
          · rw [← hst, (mem_childrenOf hw h1).2.2, hroot]
        rw [if_pos (Or.inr (Or.inl htt))]
        rw [put_find] at *
        simpa using hf
      · rename_i hc
        have hft := h t s k a hs' hf
        rw [if_neg]
        · exact hft
        · rintro (h1 | h1 | ⟨h1, -⟩)
          · subst h1
            have : w.rootOf t = t := rootOf_of_ne (hw.kid_parent_kind hs')
            apply hc; right; right
            refine ⟨by rw [childrenOf_eq hw, this]; exact hs', ?_⟩
            rw [contains_key hty _ hkk, SMap.has_iff]; exact ⟨a, hf⟩
          · apply hc; right; right
            refine ⟨by rw [childrenOf_eq hw, hroot, ← h1]; exact hs', ?_⟩
            rw [contains_key hty _ hkk, SMap.has_iff]; exact ⟨a, hf⟩
          · exact hw.kid_parent_kind hs' (mem_childrenOf hw h1).2.1
    · have e : ∀ j, (if j = i ∨ j = top ∨ (j ∈ w.childrenOf i ∧ (w.dbs j).contains ty key = true)
          then putObj key w.nHeap (w.dbs j) else w.dbs j).objs.find k = (w.dbs j).objs.find k := by
        intro j; split
        · rw [put_find, if_neg hkey]
        · rfl
      rw [e] at hf ⊢
      exact h t s k a hs' hf
  | @remove top key hi ht hk =>
    have hd := removeCore_dbs w i top key
    have hroot := topOf_some ht
    intro t s k a hs hf
    have hs' : s ∈ (w.dbs t).children := by
      rw [hd t] at hs; split at hs <;> exact hs
    obtain ⟨-, hsk, hsp⟩ := hw.kids t s hs'
    have hst : w.rootOf s = t := rootOf_of_subset hsk hsp
    rw [hd s] at hf
    rw [hd t]
    split at hf
    · simp only [SMap.find_erase] at hf
      split at hf
      · cases hf
      · rename_i hne
        have := h t s k a hs' hf
        split
        · simp only [SMap.find_erase, if_neg hne]; exact this
        · exact this
    · rename_i hc
      have := h t s k a hs' hf
      rw [if_neg]
      · exact this
      · rintro (h1 | h1)
        · exact hc (Or.inr (by rw [childrenOf_eq hw, hroot, ← h1]; exact hs'))
        · exact hw.kid_parent_kind hs' (mem_childrenOf hw h1).2.1
  | @rename top okey nkey b hi ht hk ho ha hc how =>
    have hroot := topOf_some ht
    have hnt : top ∉ w.childrenOf i := by rw [← hroot]; exact root_not_mem_children hw i
    have hd := renameCore_dbs ty w i top okey nkey b hnt
    have hkk := toKey_of_checkName hk
    have how' := how hfl
    rw [contains_key hty _ hkk, SMap.has_false_iff] at how'
    intro t s k a hs hf
    have hs' : s ∈ (w.dbs t).children := by
      rw [hd t] at hs; split at hs <;> exact hs
    obtain ⟨-, hsk, hsp⟩ := hw.kids t s hs'
    have hst : w.rootOf s = t := rootOf_of_subset hsk hsp
    rw [hd s] at hf
    rw [hd t]
    split at hf
    · rename_i hcs
      have htt : t = top := by
        rcases hcs with rfl | ⟨h1, -⟩
        · exact absurd hsk (by rw [← hroot]; exact root_kind hw i)
        · rw [← hst, (mem_childrenOf hw h1).2.2, hroot]
      rw [if_pos (Or.inl htt)]
      simp only [SMap.find_insert, SMap.find_erase] at hf ⊢
      split at hf
      · rename_i e; simpa [e] using hf
      · rename_i e1
        split at hf
        · cases hf
        · rename_i e2
          rw [if_neg e1, if_neg e2]; exact h t s k a hs' hf
    · rename_i hcs
      have hft := h t s k a hs' hf
      by_cases htt : t = top
      · rw [if_pos (Or.inl htt)]
        have hsc : s ∈ w.childrenOf i := by rw [childrenOf_eq hw, hroot, ← htt]; exact hs'
        have hno : (w.dbs s).objs.find okey = none := by
          rw [← SMap.has_false_iff, ← contains_key hty _ ho]
          cases hh : (w.dbs s).contains ty okey
          · rfl
          · exact absurd (Or.inr ⟨hsc, hh⟩) hcs
        simp only [SMap.find_insert, SMap.find_erase]
        have e1 : k ≠ nkey := by
          intro e; rw [e, htt, how'] at hft; cases hft
        have e2 : k ≠ okey := by
          intro e; rw [e, hno] at hf; cases hf
        rw [if_neg e1, if_neg e2]; exact hft
      · rw [if_neg]
        · exact hft
        · rintro (h1 | ⟨h1, -⟩)
          · exact htt h1
          · exact hw.kid_parent_kind hs' (mem_childrenOf hw h1).2.1
  | clear hi hcl =>
    have hd := clear_dbs hw i
    intro t s k a hs hf
    have hold : s ∈ (w.dbs t).children ∧ (t = i → (w.dbs i).kind = .subset) := by
      rw [hd t] at hs
      split at hs
      · rename_i hk
        refine ⟨?_, fun _ => hk⟩
        split at hs
        · exact hs
        · split at hs
          · exact (List.mem_filter.1 hs).1
          · exact hs
      · split at hs
        · simp at hs
        · rename_i hne
          split at hs
          all_goals exact ⟨hs, fun e => absurd e hne⟩
    have hfs : (w.dbs s).objs.find k = some a := by
      rw [hd s] at hf
      repeat' split at hf
      all_goals first | exact hf | simp at hf
    have hft := h t s k a hold.1 hfs
    have htk := hw.kid_parent_kind hold.1
    rw [hd t]
    split
    · rename_i hk
      rw [if_neg (fun e => by subst e; exact htk hk)]
      split <;> exact hft
    · rename_i hk
      rw [if_neg (fun e => hk (hold.2 e)), if_neg (fun hc => htk (hw.kids _ _ hc).2.1)]
      exact hft
  | write v ha => exact h
  | create g =>
    have hd := create_dbs w (if g then DbKind.global else DbKind.standalone)
    intro t s k a hs hf
    have hs' : s ∈ (w.dbs t).children ∧ t ≠ w.nDbs := by
      rw [hd t] at hs
      split at hs
      · simp [Db.empty] at hs
      · rename_i hne; exact ⟨hs, hne⟩
    have hsn : s ≠ w.nDbs := by have := (hw.kids t s hs'.1).1; omega
    rw [hd s, if_neg hsn] at hf
    rw [hd t, if_neg hs'.2]
    exact h t s k a hs'.1 hf
  | @shallow top ks m hi ht hks hm =>
    have hroot := topOf_some ht
    have htl : top < w.nDbs := by rw [← hroot]; exact rootOf_lt hw hi
    have hd := shallowCore_dbs (w := w) m htl
    have hobj : ∀ j, j ≠ w.nDbs → ((w.shallowCore top m).dbs j).objs = (w.dbs j).objs := by
      intro j hj; rw [hd j, if_neg hj]; split <;> rfl
    intro t s k a hs hf
    have htn : t ≠ w.nDbs := by
      intro e; rw [hd t, if_pos e] at hs; simp at hs
    rw [hobj t htn]
    by_cases hsn : s = w.nDbs
    · have htt : t = top := by
        rw [hd t, if_neg htn] at hs
        split at hs
        · assumption
        · have := (hw.kids t s hs).1; omega
      rw [hd s, if_pos hsn] at hf
      rcases shallowObjs_find hm k a hf with h1 | h1
      · simp at h1
      · rw [getObjPtr_of_ne hty] at h1
        obtain ⟨h2, h3⟩ := h1
        split at h3
        · cases h3
        · rw [toKey_of_checkName (hkeys i k (hks k h2))] at h3
          rw [htt]; exact h3
    · rw [hobj s hsn] at hf
      refine h t s k a ?_ hf
      rw [hd t, if_neg htn] at hs
      split at hs
      · rcases List.mem_cons.1 hs with e | e
        · exact absurd e hsn
        · exact e
      · exact hs

theorem Steps.coherent {ty : ObjType} (hty : ty ≠ .comments) {fl : Flags} (hfl : fl.overwrite = false)
    {S : Nat → Prop} {w w' : World T} (hw : w.WF) (hkeys : w.KeysOk ty) (h : w.Coherent) (hs : Steps ty fl S w w') :
    w'.Coherent := by
  induction hs with
  | refl => exact h
  | tail hs _ hp ih => exact hp.coherent hty hfl (hs.wf hw) (hs.keysOk hw hkeys) ih

theorem Prim.registered {ty : ObjType} {fl : Flags} (hfl : fl.clearSub = false)
    {w w' : World T} {i : Nat} (hw : w.WF) (h : w.AllRegistered) (hp : Prim ty fl w i w') : w'.AllRegistered := by
  -- a step that keeps kinds, parents and children
  have keep : (∀ j, (w'.dbs j).kind = (w.dbs j).kind ∧ (w'.dbs j).parent = (w.dbs j).parent ∧
      (w'.dbs j).children = (w.dbs j).children) → w'.AllRegistered := by
    intro hk s hs
    have hr : w'.rootOf s = w.rootOf s := by unfold rootOf; rw [(hk s).1, (hk s).2.1]
    rw [hr, (hk _).2.2]
    rw [(hk s).1] at hs
    exact h s hs
  cases hp with
  | alloc v => exact keep (fun j => ⟨rfl, rfl, rfl⟩)
  | @put top key v hi ht hk =>
    apply keep; intro j; rw [allocPut_dbs ty w i top key v ht]; split <;> exact ⟨rfl, rfl, rfl⟩
  | @remove top key hi ht hk =>
    apply keep; intro j; rw [removeCore_dbs]; split <;> exact ⟨rfl, rfl, rfl⟩
  | @rename top okey nkey b hi ht hk ho ha hc how =>
    have hnt : top ∉ w.childrenOf i := by rw [← topOf_some ht]; exact root_not_mem_children hw i
    apply keep; intro j; rw [renameCore_dbs ty w i top okey nkey b hnt]; split <;> exact ⟨rfl, rfl, rfl⟩
  | clear hi hcl =>
    have hd := clear_dbs hw i
    have hk := hcl hfl
    simp only [hk, if_false] at hd
    intro s hs
    have hsi : s ≠ i := by
      intro e; rw [hd s, if_pos e] at hs; subst e; exact hk hs
    rw [hd s, if_neg hsi] at hs
    split at hs
    · simp at hs
    · rename_i hnc
      have hds : (w.clear i).1.dbs s = w.dbs s := by rw [hd s, if_neg hsi, if_neg hnc]
      have hr : (w.clear i).1.rootOf s = w.rootOf s := by unfold rootOf; rw [hds]
      rw [hr]
      have hreg := h s hs
      rw [hd (w.rootOf s)]
      split
      · rename_i e; rw [e] at hreg; exact absurd hreg hnc
      · split
        · exact hreg
        · exact hreg
  | write v ha => exact keep (fun j => ⟨rfl, rfl, rfl⟩)
  | create g =>
    have hd := create_dbs w (if g then DbKind.global else DbKind.standalone)
    intro s hs
    have hsn : s ≠ w.nDbs := by
      intro e; rw [hd s, if_pos e] at hs; cases g <;> simp [Db.empty] at hs
    rw [hd s, if_neg hsn] at hs
    have hr : (w.create (if g then DbKind.global else DbKind.standalone)).1.rootOf s = w.rootOf s := by
      unfold rootOf; rw [hd s, if_neg hsn]
    rw [hr]
    have hreg := h s hs
    have := hw.lt_of_kid hreg
    rw [hd, if_neg (by omega)]
    exact hreg
  | @shallow top ks m hi ht hks hm =>
    have hroot := topOf_some ht
    have htl : top < w.nDbs := by rw [← hroot]; exact rootOf_lt hw hi
    have hd := shallowCore_dbs (w := w) m htl
    intro s hs
    by_cases hsn : s = w.nDbs
    · have hr : (w.shallowCore top m).rootOf s = top := by
        apply rootOf_of_subset hs; rw [hd s, if_pos hsn]
      rw [hr, hd top, if_neg (by omega), if_pos rfl, hsn]
      simp
    · have e : ((w.shallowCore top m).dbs s).kind = (w.dbs s).kind ∧
          ((w.shallowCore top m).dbs s).parent = (w.dbs s).parent := by
        rw [hd s, if_neg hsn]; split <;> exact ⟨rfl, rfl⟩
      have hr : (w.shallowCore top m).rootOf s = w.rootOf s := by
        unfold rootOf; rw [e.1, e.2]
      rw [e.1] at hs
      have hreg := h s hs
      have := hw.lt_of_kid hreg
      rw [hr, hd, if_neg (by omega)]
      split
      · exact List.mem_cons_of_mem _ hreg
      · exact hreg

theorem Steps.registered {ty : ObjType} {fl : Flags} (hfl : fl.clearSub = false) {S : Nat → Prop} {w w' : World T}
    (hw : w.WF) (h : w.AllRegistered) (hs : Steps ty fl S w w') : w'.AllRegistered := by
  induction hs with
  | refl => exact h
  | tail hs _ hp ih => exact hp.registered hfl (hs.wf hw) ih

/-- The call renames an object to a name already in use in the top-level database (asking for overwriting). -/
def Op.RenamesOntoUsed (ty : ObjType) (w : World T) : Op T → Prop
  | .rename i _ new ow => ow = true ∧ (w.dbs (w.rootOf i)).contains ty new = true
  | _ => False

/-- The call clears a subset (directly or as source of a merge). -/
def Op.ClearsSubset (w : World T) : Op T → Prop
  | .clear i => (w.dbs i).kind = .subset
  | .merge _ j _ c => c = true ∧ (w.dbs j).kind = .subset
  | _ => False

/-- No call of the history satisfies `bad` in the state it is made in. -/
def Never (ty : ObjType) (bad : World T → Op T → Prop) : World T → List (Op T) → Prop
  | _, [] => True
  | w, op :: ops => ¬ bad w op ∧ Never ty bad (w.step ty op).1 ops

theorem contains_toKey {ty : ObjType} (hty : ty ≠ .comments) (d : Db) (n : Name) :
    d.contains ty (toKey ty n) = d.contains ty n := by
  rw [contains_of_ne hty, contains_of_ne hty, toKey_idem]

theorem flags_overwrite {ty : ObjType} (hty : ty ≠ .comments) {w : World T} {op : Op T}
    (h : ¬ op.RenamesOntoUsed ty w) : (op.flags ty w).overwrite = false := by
  cases op with
  | rename i o n ow =>
    simp only [Op.flags, contains_toKey hty]
    cases ow with
    | false => rfl
    | true =>
      simp only [Op.RenamesOntoUsed, true_and] at h
      simpa using h
  | _ => rfl

theorem flags_clearSub {ty : ObjType} {w : World T} {op : Op T}
    (h : ¬ op.ClearsSubset w) : (op.flags ty w).clearSub = false := by
  cases op with
  | clear i => simpa [Op.flags, Op.ClearsSubset] using h
  | merge i j o c => simpa [Op.flags, Op.ClearsSubset] using h
  | _ => rfl

theorem run_coherent {ty : ObjType} (hty : ty ≠ .comments) (ops : List (Op T)) {w : World T} (hw : w.WF)
    (hk : w.KeysOk ty) (h : w.Coherent) (hn : Never ty (fun w op => op.RenamesOntoUsed ty w) w ops) :
    (w.run ty ops).Coherent := by
  induction ops generalizing w with
  | nil => exact h
  | cons op ops ih =>
    have hs := step_steps ty w op
    exact ih (step_wf ty hw op) (hs.keysOk hw hk) (hs.coherent hty (flags_overwrite hty hn.1) hw hk h) hn.2

theorem run_registered {ty : ObjType} (ops : List (Op T)) {w : World T} (hw : w.WF)
    (h : w.AllRegistered) (hn : Never ty (fun w op => op.ClearsSubset w) w ops) :
    (w.run ty ops).AllRegistered := by
  induction ops generalizing w with
  | nil => exact h
  | cons op ops ih =>
    have hs := step_steps ty w op
    exact ih (step_wf ty hw op) (hs.registered (flags_clearSub hn.1) hw h) hn.2

theorem coherent_init [Inhabited T] : (init : World T).Coherent := by
  intro t s k a hs; simp [init, Db.empty] at hs

theorem registered_init [Inhabited T] : (init : World T).AllRegistered := by
  intro s hs; simp [init, Db.empty] at hs

end World
open World

/-- After any history of calls on a workspace and its subsets, a name of a registered subset is a name of its
    parent and gives the same object (same pointer, hence same content).
    Missing for the full claim: histories that rename onto a name in use, and comments (both false, see below). -/
theorem C06_same_object_partial {T : Type} [Inhabited T] (ty : ObjType) (hty : ty ≠ .comments) (ops : List (Op T))
    (hn : Never ty (fun w op => op.RenamesOntoUsed ty w) World.init ops)
    (t s : Nat) (hs : s ∈ (((World.init : World T).run ty ops).dbs t).children) (name : Name)
    (hc : (((World.init : World T).run ty ops).dbs s).contains ty name = true) :
    let w := (World.init : World T).run ty ops
    (w.dbs t).contains ty name = true ∧ (w.dbs s).getObjPtr ty name = (w.dbs t).getObjPtr ty name ∧
      w.look ty s name = w.look ty t name := by
  have hcoh := run_coherent hty ops WF_init (keysOk_init ty) coherent_init hn
  simp only
  generalize (World.init : World T).run ty ops = w at *
  rw [contains_of_ne hty, SMap.has_iff] at hc
  obtain ⟨a, ha⟩ := hc
  have hb := hcoh t s _ a hs ha
  have e : (w.dbs s).getObjPtr ty name = (w.dbs t).getObjPtr ty name := by
    rw [getObjPtr_of_ne hty, getObjPtr_of_ne hty, ha, hb]
  refine ⟨?_, e, ?_⟩
  · rw [contains_of_ne hty, SMap.has_iff]; exact ⟨a, hb⟩
  · unfold look; rw [e]

/-- If moreover no subset was cleared, every subset is registered: the claim then holds for every subset and the
    database it was taken from. -/
theorem C06_every_subset_partial {T : Type} [Inhabited T] (ty : ObjType) (hty : ty ≠ .comments) (ops : List (Op T))
    (hn : Never ty (fun w op => op.RenamesOntoUsed ty w) World.init ops)
    (hc : Never ty (fun w op => op.ClearsSubset w) (World.init : World T) ops)
    (s : Nat) (hs : (((World.init : World T).run ty ops).dbs s).kind = .subset) (name : Name)
    (hname : (((World.init : World T).run ty ops).dbs s).contains ty name = true) :
    let w := (World.init : World T).run ty ops
    ∃ t, (w.dbs s).parent = some t ∧ (w.dbs t).contains ty name = true ∧
      (w.dbs s).getObjPtr ty name = (w.dbs t).getObjPtr ty name := by
  have hreg := run_registered ops WF_init registered_init hc s hs
  have hwf := run_wf ty (WF_init (T := T)) ops
  have h := C06_same_object_partial ty hty ops hn _ s hreg name hname
  simp only at h ⊢
  obtain ⟨p, -, hp, -⟩ := hwf.par s hs
  rw [rootOf_of_subset hs hp] at h
  exact ⟨p, hp, h.1, h.2.1⟩

/-! ## The excluded cases break the claim -/

/-- `rename` with overwriting: a subset that holds the overwritten name but not the renamed one keeps the old
    object. Databases: 0 the workspace (A = 1, B = 2), 1 the subset {B}; rename A to B in 0. -/
def renameOntoUsed : List (Op Nat) :=
  [.create true, .set 0 "A".toList 1, .set 0 "B".toList 2, .subset 0 (some ["B".toList]) false,
   .rename 0 "A".toList "B".toList true]

theorem C06_rename_overwrite_counterexample :
    let w := (World.init : World Nat).run .variables renameOntoUsed
    1 ∈ (w.dbs 0).children ∧ (w.dbs 1).contains .variables "B".toList = true ∧
    w.look .variables 1 "B".toList = some 2 ∧ w.look .variables 0 "B".toList = some 1 := by
  decide

/-- A cleared subset still writes to its parent but no longer follows it. -/
def clearedSubset : List (Op Nat) :=
  [.create true, .set 0 "A".toList 1, .subset 0 (some ["A".toList]) false, .clear 1,
   .set 1 "A".toList 5, .set 0 "A".toList 7]

theorem C06_cleared_subset_counterexample :
    let w := (World.init : World Nat).run .variables clearedSubset
    (w.dbs 1).kind = .subset ∧ (w.dbs 1).parent = some 0 ∧
    w.look .variables 1 "A".toList = some 5 ∧ w.look .variables 0 "A".toList = some 7 := by
  decide

/-- Comments: with two names differing by case only, the subset `"*"` shows under one name the object of the other. -/
def twoCases : List (Op Nat) :=
  [.create true, .set 0 "AB".toList 1, .set 0 "ab".toList 2, .subset 0 none false]

theorem C06_comments_counterexample :
    let w := (World.init : World Nat).run .comments twoCases
    1 ∈ (w.dbs 0).children ∧ ((w.dbs 1).objs.find "AB".toList).map w.heap = some 2 ∧
    ((w.dbs 0).objs.find "AB".toList).map w.heap = some 1 := by
  decide

/-! Concrete history meeting the hypotheses: two subsets, update through one of them, renaming. -/
def goodHistory : List (Op Nat) :=
  [.create true, .set 0 "A".toList 1, .set 0 "B".toList 2, .subset 0 (some ["A".toList, "B".toList]) false,
   .subset 1 (some ["B".toList]) false, .set 2 "b".toList 9, .rename 1 "A".toList "C".toList false]

example : let w := (World.init : World Nat).run .variables goodHistory
    2 ∈ (w.dbs 0).children ∧ w.look .variables 0 "B".toList = some 9 ∧ w.look .variables 1 "B".toList = some 9 ∧
    w.look .variables 1 "C".toList = some 1 ∧ (w.dbs 1).contains .variables "A".toList = false := by decide
example : Never .variables (fun w op => op.RenamesOntoUsed .variables w) (World.init : World Nat) goodHistory := by
  simp only [Never, goodHistory, Op.RenamesOntoUsed, not_false_eq_true, true_and, and_true]
  decide
example : Never .variables (fun w op => op.ClearsSubset w) (World.init : World Nat) goodHistory := by
  simp [Never, goodHistory, Op.ClearsSubset]

end Iode
