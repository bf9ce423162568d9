import Verif.Props.C06

/-!
# No two names share an object; databases of different families do not interfere
-/
namespace Iode
namespace World
variable {T : Type}

/-- The same database, or two members of one family that are linked by registration. -/
def Linked (w : World T) (i j : Nat) : Prop :=
  i = j ∨ ∃ t, (i = t ∨ i ∈ (w.dbs t).children) ∧ (j = t ∨ j ∈ (w.dbs t).children)

/-- In linked databases an object has only one name. -/
def Unshared (w : World T) : Prop :=
  ∀ i j k l a, Linked w i j → (w.dbs i).objs.find k = some a → (w.dbs j).objs.find l = some a → k = l

theorem Linked.symm {w : World T} {i j : Nat} (h : Linked w i j) : Linked w j i := by
  rcases h with h | ⟨t, h1, h2⟩
  · exact Or.inl h.symm
  · exact Or.inr ⟨t, h2, h1⟩

theorem linked_top {w : World T} (hw : w.WF) {t i j : Nat} (ht : (w.dbs t).kind ≠ .subset)
    (hi : i = t ∨ i ∈ (w.dbs t).children) (hl : Linked w i j) : j = t ∨ j ∈ (w.dbs t).children := by
  rcases hl with h | ⟨u, h1, h2⟩
  · subst h; exact hi
  · rcases hi with hi | hi
    · subst hi
      rcases h1 with h1 | h1
      · subst h1; exact h2
      · exact absurd (hw.kids _ _ h1).2.1 ht
    · obtain ⟨-, hk, hp⟩ := hw.kids _ _ hi
      rcases h1 with h1 | h1
      · subst h1
        rcases h2 with h2 | h2
        · subst h2; exact Or.inr hi
        · exact absurd hk (hw.kid_parent_kind h2)
      · have := (hw.kids _ _ h1).2.2
        rw [hp] at this; cases this; exact h2

theorem Prim.unshared {ty : ObjType} (hty : ty ≠ .comments) {fl : Flags}
    {w w' : World T} {i : Nat} (hw : w.WF) (hkeys : w.KeysOk ty) (h : w.Unshared) (hp : Prim ty fl w i w') :
    w'.Unshared := by
  have linkOf : (∀ j, (w'.dbs j).children = (w.dbs j).children) → ∀ x y, Linked w' x y → Linked w x y := by
    intro hc x y hl
    rcases hl with hl | ⟨t, h1, h2⟩
    · exact Or.inl hl
    · rw [hc] at h1 h2; exact Or.inr ⟨t, h1, h2⟩
  cases hp with
  | alloc v => exact h
  | @put top key v hi ht hk =>
    have hd := allocPut_dbs ty w i top key v ht
    have hc : ∀ j, ((w.allocPut ty i top key v).dbs j).children = (w.dbs j).children := by
      intro j; rw [hd j]; split <;> rfl
    have hf : ∀ j k a, ((w.allocPut ty i top key v).dbs j).objs.find k = some a →
        (a = w.nHeap ∧ k = key) ∨ (w.dbs j).objs.find k = some a := by
      intro j k a hf
      rw [hd j] at hf
      split at hf
      · rw [put_find] at hf
        split at hf
        · rename_i e; cases hf; exact Or.inl ⟨rfl, e⟩
        · exact Or.inr hf
      · exact Or.inr hf
    intro x y k l a hl h1 h2
    rcases hf x k a h1 with ⟨rfl, hk1⟩ | h1
    · rcases hf y l _ h2 with ⟨-, hk2⟩ | h2
      · rw [hk1, hk2]
      · have := hw.addr _ _ _ h2; omega
    · rcases hf y l _ h2 with ⟨ha, -⟩ | h2
      · have := hw.addr _ _ _ h1; omega
      · exact h x y k l a (linkOf hc x y hl) h1 h2
  | @remove top key hi ht hk =>
    have hd := removeCore_dbs w i top key
    have hc : ∀ j, ((w.removeCore i top key).dbs j).children = (w.dbs j).children := by
      intro j; rw [hd j]; split <;> rfl
    have hf : ∀ j k a, ((w.removeCore i top key).dbs j).objs.find k = some a → (w.dbs j).objs.find k = some a := by
      intro j k a hf
      rw [hd j] at hf
      split at hf
      · simp only [SMap.find_erase] at hf
        split at hf
        · cases hf
        · exact hf
      · exact hf
    intro x y k l a hl h1 h2
    exact h x y k l a (linkOf hc x y hl) (hf _ _ _ h1) (hf _ _ _ h2)
  | @rename top okey nkey b hi ht hk ho ha hcon how =>
    have hroot := topOf_some ht
    have htk : (w.dbs top).kind ≠ .subset := by rw [← hroot]; exact root_kind hw i
    have hnt : top ∉ w.childrenOf i := by rw [← hroot]; exact root_not_mem_children hw i
    have hch : w.childrenOf i = (w.dbs top).children := by rw [childrenOf_eq hw, hroot]
    have hd := renameCore_dbs ty w i top okey nkey b hnt
    rw [hch] at hd
    have hc : ∀ j, ((w.renameCore ty i top okey nkey b).dbs j).children = (w.dbs j).children := by
      intro j; rw [hd j]; split <;> rfl
    have htop : (w.dbs top).objs.find okey = some b := by
      rw [getObjPtr_of_ne hty, ho] at ha
      split at ha
      · cases ha
      · exact ha
    -- in the registered family, b is only found under the new key
    have hfam : ∀ j, (j = top ∨ j ∈ (w.dbs top).children) → ∀ k a,
        ((w.renameCore ty i top okey nkey b).dbs j).objs.find k = some a →
        (a = b ∧ k = nkey) ∨ (a ≠ b ∧ (w.dbs j).objs.find k = some a) := by
      intro j hj k a hf
      have hlink : Linked w j top := Or.inr ⟨top, hj, Or.inl rfl⟩
      have hold : ∀ k a, (w.dbs j).objs.find k = some a → k ≠ okey → a ≠ b := by
        intro k' a' hf' hne e
        exact hne (h j top k' okey a' hlink hf' (e ▸ htop))
      rw [hd j] at hf
      split at hf
      · simp only [SMap.find_insert, SMap.find_erase] at hf
        split at hf
        · rename_i e; cases hf; exact Or.inl ⟨rfl, e⟩
        · split at hf
          · cases hf
          · rename_i e; exact Or.inr ⟨hold k a hf e, hf⟩
      · rename_i hcs
        have hjc : j ∈ (w.dbs top).children := by
          rcases hj with hj | hj
          · exact absurd (Or.inl hj) hcs
          · exact hj
        have : k ≠ okey := by
          intro e; subst e
          apply hcs; right
          refine ⟨hjc, ?_⟩
          rw [contains_key hty _ ho, SMap.has_iff]; exact ⟨a, hf⟩
        exact Or.inr ⟨hold k a hf this, hf⟩
    intro x y k l a hl h1 h2
    have hl' := linkOf hc x y hl
    by_cases hx : x = top ∨ x ∈ (w.dbs top).children
    · have hy := linked_top hw htk hx hl'
      rcases hfam x hx k a h1 with ⟨e1, e2⟩ | ⟨e1, e2⟩
      · rcases hfam y hy l a h2 with ⟨-, e4⟩ | ⟨e3, -⟩
        · rw [e2, e4]
        · exact absurd e1 e3
      · rcases hfam y hy l a h2 with ⟨e3, -⟩ | ⟨-, e4⟩
        · exact absurd e3 e1
        · exact h x y k l a hl' e2 e4
    · have hy : ¬ (y = top ∨ y ∈ (w.dbs top).children) := fun hy => hx (linked_top hw htk hy hl'.symm)
      have same : ∀ z, ¬ (z = top ∨ z ∈ (w.dbs top).children) →
          (w.renameCore ty i top okey nkey b).dbs z = w.dbs z := by
        intro z hz
        rw [hd z, if_neg]
        rintro (e | e)
        · exact hz (Or.inl e)
        · exact hz (Or.inr e.1)
      rw [same x hx] at h1
      rw [same y hy] at h2
      exact h x y k l a hl' h1 h2
  | clear hi hcl =>
    have hd := clear_dbs hw i
    have hc : ∀ j c, c ∈ ((w.clear i).1.dbs j).children → c ∈ (w.dbs j).children := by
      intro j c hcc
      rw [hd j] at hcc
      repeat' split at hcc
      all_goals first | exact hcc | exact (List.mem_filter.1 hcc).1 | simp at hcc
    have hf : ∀ j k a, ((w.clear i).1.dbs j).objs.find k = some a → (w.dbs j).objs.find k = some a := by
      intro j k a hf
      rw [hd j] at hf
      repeat' split at hf
      all_goals first | exact hf | simp at hf
    intro x y k l a hl h1 h2
    refine h x y k l a ?_ (hf _ _ _ h1) (hf _ _ _ h2)
    rcases hl with hl | ⟨t, e1, e2⟩
    · exact Or.inl hl
    · exact Or.inr ⟨t, e1.imp id (hc t x), e2.imp id (hc t y)⟩
  | write v ha => exact h
  | create g =>
    have hd := create_dbs w (if g then DbKind.global else DbKind.standalone)
    have hf : ∀ j k a, ((w.create (if g then DbKind.global else DbKind.standalone)).1.dbs j).objs.find k = some a →
        (w.dbs j).objs.find k = some a := by
      intro j k a hf
      rw [hd j] at hf
      split at hf
      · simp [Db.empty] at hf
      · exact hf
    have hc : ∀ j c, c ∈ ((w.create (if g then DbKind.global else DbKind.standalone)).1.dbs j).children →
        c ∈ (w.dbs j).children := by
      intro j c hcc
      rw [hd j] at hcc
      split at hcc
      · simp [Db.empty] at hcc
      · exact hcc
    intro x y k l a hl h1 h2
    refine h x y k l a ?_ (hf _ _ _ h1) (hf _ _ _ h2)
    rcases hl with hl | ⟨t, e1, e2⟩
    · exact Or.inl hl
    · exact Or.inr ⟨t, e1.imp id (hc t x), e2.imp id (hc t y)⟩
  | @shallow top ks m hi ht hks hm =>
    have hroot := topOf_some ht
    have htl : top < w.nDbs := by rw [← hroot]; exact rootOf_lt hw hi
    have hd := shallowCore_dbs (w := w) m htl
    -- replace the new database by its parent
    let old : Nat → Nat := fun j => if j = w.nDbs then top else j
    have hf : ∀ j k a, ((w.shallowCore top m).dbs j).objs.find k = some a → (w.dbs (old j)).objs.find k = some a := by
      intro j k a hf
      by_cases hj : j = w.nDbs
      · rw [hd j, if_pos hj] at hf
        simp only [old, hj, if_true]
        rcases shallowObjs_find hm k a hf with h1 | ⟨h1, h2⟩
        · simp at h1
        · rw [getObjPtr_of_ne hty, toKey_of_checkName (hkeys i k (hks k h1))] at h2
          split at h2
          · cases h2
          · exact h2
      · rw [hd j, if_neg hj] at hf
        simp only [old, hj, if_false]
        split at hf <;> exact hf
    have hc : ∀ j c, c ∈ ((w.shallowCore top m).dbs j).children →
        (j = top ∧ c = w.nDbs) ∨ (c ∈ (w.dbs j).children ∧ c ≠ w.nDbs ∧ j ≠ w.nDbs) := by
      intro j c hcc
      rw [hd j] at hcc
      split at hcc
      · simp at hcc
      · rename_i hj
        have : ∀ c, c ∈ (w.dbs j).children → c ∈ (w.dbs j).children ∧ c ≠ w.nDbs ∧ j ≠ w.nDbs := by
          intro c hc; have := (hw.kids _ _ hc).1; exact ⟨hc, by omega, hj⟩
        split at hcc
        · rename_i e
          rcases List.mem_cons.1 hcc with e2 | e2
          · exact Or.inl ⟨e, e2⟩
          · exact Or.inr (this c e2)
        · exact Or.inr (this c hcc)
    have hm' : ∀ t x, (x = t ∨ x ∈ ((w.shallowCore top m).dbs t).children) → (old x = old t ∨ old x ∈ (w.dbs (old t)).children) := by
      intro t x hx
      rcases hx with hx | hx
      · exact Or.inl (by rw [hx])
      · rcases hc t x hx with ⟨e1, e2⟩ | ⟨e1, e2, e3⟩
        · left; simp only [old, e2, if_true, e1]; split <;> rfl
        · right; simp only [old, e2, e3, if_false]; exact e1
    intro x y k l a hl h1 h2
    refine h (old x) (old y) k l a ?_ (hf _ _ _ h1) (hf _ _ _ h2)
    rcases hl with hl | ⟨t, e1, e2⟩
    · exact Or.inl (by rw [hl])
    · exact Or.inr ⟨old t, hm' t x e1, hm' t y e2⟩

theorem Steps.unshared {ty : ObjType} (hty : ty ≠ .comments) {fl : Flags} {S : Nat → Prop} {w w' : World T}
    (hw : w.WF) (hkeys : w.KeysOk ty) (h : w.Unshared) (hs : Steps ty fl S w w') : w'.Unshared := by
  induction hs with
  | refl => exact h
  | tail hs _ hp ih => exact hp.unshared hty (hs.wf hw) (hs.keysOk hw hkeys) ih

theorem unshared_init [Inhabited T] : (init : World T).Unshared := by
  intro i j k l a _ h; simp [init, Db.empty] at h

/-- The three invariants of all reachable worlds. -/
structure Good (ty : ObjType) (w : World T) : Prop where
  wf : w.WF
  keys : w.KeysOk ty
  unshared : w.Unshared

theorem good_init [Inhabited T] (ty : ObjType) : (init : World T).Good ty :=
  ⟨WF_init, keysOk_init ty, unshared_init⟩

theorem Good.steps {ty : ObjType} (hty : ty ≠ .comments) {fl : Flags} {S : Nat → Prop} {w w' : World T}
    (h : w.Good ty) (hs : Steps ty fl S w w') : w'.Good ty :=
  ⟨hs.wf h.wf, hs.keysOk h.wf h.keys, hs.unshared hty h.wf h.keys h.unshared⟩

theorem Good.step {ty : ObjType} (hty : ty ≠ .comments) {w : World T} (h : w.Good ty) (op : Op T) :
    (w.step ty op).1.Good ty := h.steps hty (step_steps ty w op)

theorem Good.run {ty : ObjType} (hty : ty ≠ .comments) {w : World T} (h : w.Good ty) (ops : List (Op T)) :
    (w.run ty ops).Good ty := by
  induction ops generalizing w with
  | nil => exact h
  | cons op ops ih => exact ih (h.step hty op)

/-! ## Families do not interfere -/

/-- An elementary step by `i` leaves any database of another family as it was, with all its objects, and keeps
    families apart. -/
theorem Prim.frame {ty : ObjType} {fl : Flags} {w w' : World T} {i : Nat} (hw : w.WF) (hp : Prim ty fl w i w')
    {j : Nat} (hj : j < w.nDbs) (hne : w.rootOf i ≠ w.rootOf j) :
    w'.dbs j = w.dbs j ∧ (∀ k a, (w.dbs j).objs.find k = some a → w'.heap a = w.heap a) ∧
    (∀ x, w.rootOf x ≠ w.rootOf j → w'.rootOf x ≠ w'.rootOf j) := by
  -- steps that keep kinds and parents keep the roots
  have roots : (∀ x, (w'.dbs x).kind = (w.dbs x).kind ∧ (w'.dbs x).parent = (w.dbs x).parent) →
      ∀ x, w.rootOf x ≠ w.rootOf j → w'.rootOf x ≠ w'.rootOf j := by
    intro hk x hx
    have e : ∀ x, w'.rootOf x = w.rootOf x := by
      intro x; unfold rootOf; rw [(hk x).1, (hk x).2]
    rw [e, e]; exact hx
  have hji : j ≠ i := by intro e; subst e; exact hne rfl
  have hjr : j ≠ w.rootOf i := by
    intro e; subst e; exact hne (rootOf_rootOf hw i).symm
  have hjc : j ∉ w.childrenOf i := by
    intro hc; exact hne (mem_childrenOf hw hc).2.2.symm
  cases hp with
  | alloc v =>
    refine ⟨rfl, ?_, roots (fun x => ⟨rfl, rfl⟩)⟩
    intro k a hf
    have := hw.addr _ _ _ hf
    show (if a = w.nHeap then v else w.heap a) = w.heap a
    rw [if_neg (by omega)]
  | @put top key v hi ht hk =>
    have hd := allocPut_dbs ty w i top key v ht
    rw [topOf_some ht] at hjr
    refine ⟨?_, ?_, roots ?_⟩
    · rw [hd j, if_neg]
      rintro (e | e | e)
      · exact hji e
      · exact hjr e
      · exact hjc e.1
    · intro k a hf
      have := hw.addr _ _ _ hf
      have : (w.allocPut ty i top key v).heap a = if a = w.nHeap then v else w.heap a := by
        unfold allocPut setNoCheck; simp only [modAll]; split <;> rfl
      rw [this, if_neg (by omega)]
    · intro x; rw [hd x]; split <;> exact ⟨rfl, rfl⟩
  | @remove top key hi ht hk =>
    have hd := removeCore_dbs w i top key
    rw [topOf_some ht] at hjr
    refine ⟨?_, fun k a hf => rfl, roots ?_⟩
    · rw [hd j, if_neg]
      rintro (e | e)
      · exact hjr e
      · exact hjc e
    · intro x; rw [hd x]; split <;> exact ⟨rfl, rfl⟩
  | @rename top okey nkey b hi ht hk ho ha hcon how =>
    have hnt : top ∉ w.childrenOf i := by rw [← topOf_some ht]; exact root_not_mem_children hw i
    have hd := renameCore_dbs ty w i top okey nkey b hnt
    rw [topOf_some ht] at hjr
    refine ⟨?_, fun k a hf => rfl, roots ?_⟩
    · rw [hd j, if_neg]
      rintro (e | e)
      · exact hjr e
      · exact hjc e.1
    · intro x; rw [hd x]; split <;> exact ⟨rfl, rfl⟩
  | clear hi hcl =>
    have hd := clear_dbs hw i
    have hh : (w.clear i).1.heap = w.heap := by
      unfold World.clear; split
      · split <;> rfl
      · rfl
    have hdj : (w.clear i).1.dbs j = w.dbs j := by
      rw [hd j]
      by_cases hk : (w.dbs i).kind = .subset
      · simp only [hk, hji, hjr, if_true, if_false]
      · rw [childrenOf_eq hw, rootOf_of_ne hk] at hjc
        simp only [hk, hji, hjc, if_false]

    refine ⟨hdj, fun k a hf => by rw [hh], ?_⟩
    intro x hx
    have hrj : (w.clear i).1.rootOf j = w.rootOf j := by unfold rootOf; rw [hdj]
    rw [hrj]
    by_cases hk : (w.dbs i).kind = .subset
    · have : (w.clear i).1.rootOf x = w.rootOf x := by
        have e : ((w.clear i).1.dbs x).kind = (w.dbs x).kind ∧ ((w.clear i).1.dbs x).parent = (w.dbs x).parent := by
          rw [hd x, if_pos hk]; split
          · exact ⟨rfl, rfl⟩
          · split <;> exact ⟨rfl, rfl⟩
        unfold rootOf; rw [e.1, e.2]
      rw [this]; exact hx
    · by_cases hxc : x ∈ (w.dbs i).children
      · have hxk := (hw.kids _ _ hxc).2.1
        have hxi : x ≠ i := by intro e; subst e; exact hk hxk
        have : (w.clear i).1.rootOf x = x := by
          apply rootOf_of_ne
          rw [hd x, if_neg hk, if_neg hxi, if_pos hxc]; simp
        rw [this]
        intro e
        exact root_kind hw j (e ▸ hxk)
      · have : (w.clear i).1.rootOf x = w.rootOf x := by
          have e : ((w.clear i).1.dbs x).kind = (w.dbs x).kind ∧ ((w.clear i).1.dbs x).parent = (w.dbs x).parent := by
            rw [hd x, if_neg hk, if_neg hxc]; split <;> exact ⟨rfl, rfl⟩
          unfold rootOf; rw [e.1, e.2]
        rw [this]; exact hx
  | @write a name v ha =>
    refine ⟨rfl, ?_, roots (fun x => ⟨rfl, rfl⟩)⟩
    intro k b hf
    obtain ⟨l, hl⟩ := getObjPtr_some ha
    show (if b = a then v else w.heap b) = w.heap b
    rw [if_neg]
    intro e; subst e
    exact hne (hw.sep _ _ _ _ _ hl hf)
  | create g =>
    have hd := create_dbs w (if g then DbKind.global else DbKind.standalone)
    refine ⟨by rw [hd j, if_neg (by omega)], fun k a hf => rfl, ?_⟩
    intro x hx
    have e : ∀ x, (w.create (if g then DbKind.global else DbKind.standalone)).1.rootOf x = w.rootOf x := by
      intro x
      by_cases hxn : x = w.nDbs
      · rw [rootOf_ge hw (by omega : w.nDbs ≤ x), rootOf_of_ne]
        rw [hd x, if_pos hxn]; cases g <;> simp [Db.empty]
      · unfold rootOf; rw [hd x, if_neg hxn]
    rw [e, e]; exact hx
  | @shallow top ks m hi ht hks hm =>
    have hroot := topOf_some ht
    have htl : top < w.nDbs := by rw [← hroot]; exact rootOf_lt hw hi
    have hd := shallowCore_dbs (w := w) m htl
    rw [hroot] at hjr
    have hdj : (w.shallowCore top m).dbs j = w.dbs j := by
      rw [hd j, if_neg (by omega), if_neg hjr]
    refine ⟨hdj, fun k a hf => rfl, ?_⟩
    intro x hx
    have hrj : (w.shallowCore top m).rootOf j = w.rootOf j := by unfold rootOf; rw [hdj]
    rw [hrj]
    by_cases hxn : x = w.nDbs
    · have : (w.shallowCore top m).rootOf x = top := by
        apply rootOf_of_subset
        · rw [hd x, if_pos hxn]
        · rw [hd x, if_pos hxn]
      rw [this, ← hroot]; exact hne
    · have : (w.shallowCore top m).rootOf x = w.rootOf x := by
        have e : ((w.shallowCore top m).dbs x).kind = (w.dbs x).kind ∧
            ((w.shallowCore top m).dbs x).parent = (w.dbs x).parent := by
          rw [hd x, if_neg hxn]; split <;> exact ⟨rfl, rfl⟩
        unfold rootOf; rw [e.1, e.2]
      rw [this]; exact hx

theorem Steps.frame {ty : ObjType} {fl : Flags} {S : Nat → Prop} {w w' : World T} (hw : w.WF) (hs : Steps ty fl S w w')
    {j : Nat} (hj : j < w.nDbs) (hne : ∀ i, S i → w.rootOf i ≠ w.rootOf j) :
    w'.dbs j = w.dbs j ∧ (∀ k a, (w.dbs j).objs.find k = some a → w'.heap a = w.heap a) ∧
    (∀ x, w.rootOf x ≠ w.rootOf j → w'.rootOf x ≠ w'.rootOf j) := by
  induction hs with
  | refl => exact ⟨rfl, fun _ _ _ => rfl, fun _ h => h⟩
  | tail hs hi hp ih =>
    obtain ⟨h1, h2, h3⟩ := ih
    have hw1 := hs.wf hw
    obtain ⟨g1, g2, g3⟩ := hp.frame hw1 (Nat.lt_of_lt_of_le hj hs.nDbs_le) (h3 _ (hne _ hi))
    refine ⟨g1.trans h1, ?_, fun x hx => g3 x (h3 x hx)⟩
    intro k a hf
    rw [g2 k a (by rw [h1]; exact hf), h2 k a hf]

end World
end Iode
