import Verif.Lemmas.KdbShare

/-!
# What the calls do to the content of a database that is not a subset
-/
namespace Iode
namespace World
variable {T : Type}

/-- Content of database `i` under the key `k`. -/
def val (w : World T) (i : Nat) (k : Name) : Option T := ((w.dbs i).objs.find k).map w.heap

theorem val_none {w : World T} {i : Nat} {k : Name} : w.val i k = none ↔ (w.dbs i).objs.has k = false := by
  unfold val; rw [SMap.has_false_iff]; cases (w.dbs i).objs.find k <;> simp

theorem val_isSome {w : World T} {i : Nat} {k : Name} : (∃ v, w.val i k = some v) ↔ (w.dbs i).objs.has k = true := by
  unfold val; rw [SMap.has_iff]; cases (w.dbs i).objs.find k <;> simp

theorem find_empty_key {ty : ObjType} {w : World T} (hk : w.KeysOk ty) (i : Nat) : (w.dbs i).objs.find [] = none := by
  cases h : (w.dbs i).objs.find [] with
  | none => rfl
  | some a =>
    have := hk i [] ((SMap.mem_keys_iff _ _).2 ⟨a, h⟩)
    simp [checkName] at this

theorem look_eq {ty : ObjType} (hty : ty ≠ .comments) {w : World T} (hk : w.KeysOk ty) (i : Nat) (name : Name) :
    w.look ty i name = w.val i (toKey ty name) := by
  unfold look val
  rw [getObjPtr_of_ne hty]
  split
  · rename_i h; rw [h, find_empty_key hk]
  · rfl

theorem val_key_checked {ty : ObjType} {w : World T} (hk : w.KeysOk ty) {i : Nat} {k : Name} {v : T}
    (h : w.val i k = some v) : checkName ty k = true := by
  apply hk i k
  rw [← SMap.has_iff_mem]
  exact val_isSome.1 ⟨v, h⟩

theorem topOf_self {w : World T} {i : Nat} (h : (w.dbs i).kind ≠ .subset) : w.topOf i = some i := by
  unfold topOf; split
  · rename_i hh; exact absurd hh h
  · rfl

theorem allocPut_heap (ty : ObjType) (w : World T) (i top : Nat) (key : Name) (v : T) (a : Nat) :
    (w.allocPut ty i top key v).heap a = if a = w.nHeap then v else w.heap a := by
  unfold allocPut setNoCheck; simp only [modAll]; split <;> rfl

theorem allocPut_val {ty : ObjType} {w : World T} (hw : w.WF) {i : Nat} (hk : (w.dbs i).kind ≠ .subset) (key : Name)
    (v : T) (k : Name) :
    (w.allocPut ty i i key v).val i k = if k = key then some v else w.val i k := by
  unfold val
  rw [allocPut_dbs ty w i i key v (topOf_self hk) i, if_pos (Or.inl rfl), put_find]
  split
  · simp [allocPut_heap]
  · cases h : (w.dbs i).objs.find k with
    | none => rfl
    | some a =>
      have := hw.addr _ _ _ h
      simp only [Option.map_some, allocPut_heap]
      rw [if_neg (by omega)]

theorem allocPut_kind {ty : ObjType} {w : World T} {i : Nat} (hk : (w.dbs i).kind ≠ .subset) (key : Name) (v : T) (j : Nat) :
    ((w.allocPut ty i i key v).dbs j).kind = (w.dbs j).kind := by
  rw [allocPut_dbs ty w i i key v (topOf_self hk) j]; split <;> rfl

/-- `set_obj_ptr` with a valid name on a top-level database stores the pointed object. -/
theorem setObjPtr_val {ty : ObjType} (hty : ty ≠ .comments) {w : World T} (hw : w.WF) {i : Nat}
    (hk : (w.dbs i).kind ≠ .subset) {name : Name} (hn : checkName ty (toKey ty name) = true) (a : Nat) :
    (w.setObjPtr ty i name a).2 = .ok true ∧
    (∀ k, (w.setObjPtr ty i name a).1.val i k = if k = toKey ty name then some (w.heap a) else w.val i k) ∧
    (∀ j, ((w.setObjPtr ty i name a).1.dbs j).kind = (w.dbs j).kind) ∧
    (w.setObjPtr ty i name a).1.nDbs = w.nDbs := by
  have hne : toKey ty name ≠ [] := by
    intro e; rw [e] at hn; simp [checkName] at hn
  unfold setObjPtr
  simp only [topOf_self hk, hn, hne, if_false, Bool.true_eq_false]
  split
  · rename_i he
    refine ⟨rfl, ?_, fun _ => rfl, rfl⟩
    intro k
    split
    · rename_i e
      subst e
      obtain ⟨e1, e2⟩ := he
      rw [getKey_of_ne hty, toKey_idem] at e1 e2
      split at e1
      · rename_i hh
        rw [if_pos hh] at e2
        unfold val; rw [e2]; rfl
      · exact absurd rfl e1
    · rfl
  · exact ⟨rfl, fun k => allocPut_val hw hk _ _ k, fun j => allocPut_kind hk _ _ j, allocPut_nDbs _ _ _ _ _ _⟩

theorem alloc_val {w : World T} (hw : w.WF) (v : T) (i : Nat) (k : Name) : (w.alloc v).1.val i k = w.val i k := by
  show ((w.dbs i).objs.find k).map _ = _
  unfold val
  cases h : (w.dbs i).objs.find k with
  | none => rfl
  | some a =>
    have := hw.addr _ _ _ h
    simp only [Option.map_some, alloc]
    rw [if_neg (by omega)]

theorem alloc_wf (ty : ObjType) {w : World T} (hw : w.WF) (v : T) : (w.alloc v).1.WF :=
  Prim.wf (ty := ty) (fl := ⟨false, false⟩) (i := 0) hw (Prim.alloc v)

theorem set_val {ty : ObjType} (hty : ty ≠ .comments) {w : World T} (hw : w.WF) {i : Nat}
    (hk : (w.dbs i).kind ≠ .subset) {name : Name} (hn : checkName ty (toKey ty name) = true) (v : T) :
    (w.set ty i name v).2 = .ok true ∧
    (∀ k, (w.set ty i name v).1.val i k = if k = toKey ty name then some v else w.val i k) ∧
    (∀ j, ((w.set ty i name v).1.dbs j).kind = (w.dbs j).kind) ∧ (w.set ty i name v).1.nDbs = w.nDbs := by
  obtain ⟨h1, h2, h3, h4⟩ := setObjPtr_val hty (alloc_wf ty hw v) (w := (w.alloc v).1) (i := i) hk hn w.nHeap
  refine ⟨h1, ?_, h3, h4⟩
  intro k
  refine (h2 k).trans ?_
  rw [alloc_val hw]
  have : (w.alloc v).1.heap w.nHeap = v := by simp [alloc]
  rw [this]

/-- `remove` on a top-level database. -/
theorem remove_val {ty : ObjType} (hty : ty ≠ .comments) {w : World T} {i : Nat}
    (hk : (w.dbs i).kind ≠ .subset) (name : Name) :
    (w.remove ty i name).2 = .ok ((w.dbs i).objs.has (toKey ty name)) ∧
    (∀ k, (w.remove ty i name).1.val i k = if k = toKey ty name then none else w.val i k) ∧
    (∀ j, ((w.remove ty i name).1.dbs j).kind = (w.dbs j).kind) ∧ (w.remove ty i name).1.nDbs = w.nDbs := by
  unfold remove
  simp only [topOf_self hk, contains_of_ne hty, toKey_idem, and_self]
  cases hh : (w.dbs i).objs.has (toKey ty name) with
  | false =>
    refine ⟨rfl, ?_, fun _ => rfl, rfl⟩
    intro k
    simp only [Bool.false_eq_true, if_false]
    split
    · rename_i e; rw [e]; exact val_none.2 hh
    · rfl
  | true =>
    simp only [if_true]
    have hd := removeCore_dbs w i i (toKey ty name)
    refine ⟨trivial, ?_, ?_, rfl⟩
    · intro k
      show (((w.removeCore i i (toKey ty name)).dbs i).objs.find k).map w.heap = _
      rw [hd i, if_pos (Or.inl rfl)]
      simp only [SMap.find_erase]
      split
      · rfl
      · rfl
    · intro j
      show ((w.removeCore i i (toKey ty name)).dbs j).kind = _
      rw [hd j]; split <;> rfl

/-- `clear` on a top-level database. -/
theorem clear_val {w : World T} (hw : w.WF) {i : Nat} (hk : (w.dbs i).kind ≠ .subset) :
    (w.clear i).2 = .ok true ∧ (∀ k, (w.clear i).1.val i k = none) ∧ ((w.clear i).1.dbs i).kind = (w.dbs i).kind := by
  have hd := clear_dbs hw i i
  rw [if_neg hk, if_pos rfl] at hd
  refine ⟨?_, ?_, by rw [hd]⟩
  · unfold World.clear; split <;> rfl
  · intro k; unfold val; rw [hd]; rfl

/-- Writing through a pointer changes what is under this name only. -/
theorem write_val {w : World T} (hu : w.Unshared) {i a : Nat} {key : Name} (hf : (w.dbs i).objs.find key = some a)
    (v : T) (k : Name) : (w.writeCore a v).val i k = if k = key then some v else w.val i k := by
  show ((w.dbs i).objs.find k).map (fun b => if b = a then v else w.heap b) = _
  split
  · rename_i e; subst e; rw [hf]; simp
  · rename_i hne
    unfold val
    cases h : (w.dbs i).objs.find k with
    | none => rfl
    | some b =>
      simp only [Option.map_some]
      rw [if_neg]
      intro e; subst e
      exact hne (hu i i k key b (Or.inl rfl) h hf)

theorem rename_val {w : World T} {ty : ObjType} (hw : w.WF) {i a : Nat} (hk : (w.dbs i).kind ≠ .subset)
    {okey nkey : Name} (hf : (w.dbs i).objs.find okey = some a) (k : Name) :
    (w.renameCore ty i i okey nkey a).val i k =
      if k = nkey then w.val i okey else if k = okey then none else w.val i k := by
  have hnt : i ∉ w.childrenOf i := by
    have := root_not_mem_children hw i
    rwa [rootOf_of_ne hk] at this
  show (((w.renameCore ty i i okey nkey a).dbs i).objs.find k).map w.heap = _
  rw [renameCore_dbs ty w i i okey nkey a hnt i, if_pos (Or.inl rfl)]
  simp only [SMap.find_insert, SMap.find_erase]
  unfold val
  rw [hf]
  repeat' split
  all_goals first | rfl | contradiction

end World
end Iode

namespace Iode
namespace World
variable {T : Type}

/-- A top-level database `i` that receives objects and a database `j` of another family that gives them. -/
structure Apart (ty : ObjType) (w : World T) (i j : Nat) : Prop where
  good : w.Good ty
  hi : i < w.nDbs
  hj : j < w.nDbs
  top : (w.dbs i).kind ≠ .subset
  ne : w.rootOf i ≠ w.rootOf j

/-- What the receiving side may do: the giving database and its objects are unchanged. -/
structure Kept (ty : ObjType) (w w' : World T) (i j : Nat) : Prop where
  apart : Apart ty w' i j
  db : w'.dbs j = w.dbs j
  val : ∀ k, w'.val j k = w.val j k
  n : w'.nDbs = w.nDbs

theorem Kept.refl {ty : ObjType} {w : World T} {i j : Nat} (h : Apart ty w i j) : Kept ty w w i j :=
  ⟨h, rfl, fun _ => rfl, rfl⟩

theorem Kept.trans {ty : ObjType} {w w1 w2 : World T} {i j : Nat} (h1 : Kept ty w w1 i j) (h2 : Kept ty w1 w2 i j) :
    Kept ty w w2 i j :=
  ⟨h2.apart, h2.db.trans h1.db, fun k => (h2.val k).trans (h1.val k), h2.n.trans h1.n⟩

theorem val_of_frame {w w' : World T} {j : Nat} (h1 : w'.dbs j = w.dbs j)
    (h2 : ∀ k a, (w.dbs j).objs.find k = some a → w'.heap a = w.heap a) (k : Name) : w'.val j k = w.val j k := by
  unfold World.val; rw [h1]
  cases h : (w.dbs j).objs.find k with
  | none => rfl
  | some a => simp [h2 k a h]

theorem kept_of_steps {ty : ObjType} (hty : ty ≠ .comments) {fl : Flags} {w w' : World T} {i j : Nat} (h : Apart ty w i j)
    (hs : Steps ty fl (· = i) w w') (hk : (w'.dbs i).kind = (w.dbs i).kind) (hn : w'.nDbs = w.nDbs) : Kept ty w w' i j := by
  obtain ⟨h1, h2, h3⟩ := hs.frame h.good.wf h.hj (by rintro x rfl; exact h.ne)
  exact ⟨⟨h.good.steps hty hs, by rw [hn]; exact h.hi, by rw [hn]; exact h.hj, by rw [hk]; exact h.top, h3 i h.ne⟩, h1,
    val_of_frame h1 h2, hn⟩

/-- Copying the object of a key from another family. -/
theorem copy_val {ty : ObjType} (hty : ty ≠ .comments) {w : World T} {i j : Nat} (h : Apart ty w i j) {k0 : Name} {v : T}
    (hv : w.val j k0 = some v) :
    (w.copyObjFrom ty i j k0 k0).2 = .ok true ∧ Kept ty w (w.copyObjFrom ty i j k0 k0).1 i j ∧
    (∀ k, (w.copyObjFrom ty i j k0 k0).1.val i k = if k = k0 then some v else w.val i k) := by
  have hc := val_key_checked h.good.keys hv
  have hkk := toKey_of_checkName hc
  have hp : ∃ a, (w.dbs j).getObjPtr ty k0 = some a ∧ w.heap a = v := by
    unfold val at hv
    cases hf : (w.dbs j).objs.find k0 with
    | none => rw [hf] at hv; cases hv
    | some a =>
      rw [hf] at hv
      refine ⟨a, ?_, by simpa using hv⟩
      rw [getObjPtr_of_ne hty, hkk, if_neg, hf]
      intro e; rw [e] at hc; simp [checkName] at hc
  obtain ⟨a, ha, hav⟩ := hp
  have he : w.copyObjFrom ty i j k0 k0 = w.setObjPtr ty i k0 a := by unfold copyObjFrom; rw [ha]
  have hs := setObjPtr_steps ty (fl := ⟨false, false⟩) h.hi k0 a
  rw [he]
  obtain ⟨h1, h2, h3, h4⟩ := setObjPtr_val hty h.good.wf h.top (name := k0) (by rw [hkk]; exact hc) a
  rw [hkk, hav] at h2
  exact ⟨h1, kept_of_steps hty h hs (h3 i) h4, h2⟩

/-- The loop of `merge` between two families. -/
theorem mergeLoop_val {ty : ObjType} (hty : ty ≠ .comments) {i j : Nat} (ow : Bool) (ks : List Name) {w : World T}
    (h : Apart ty w i j) (hks : ∀ k ∈ ks, k ∈ (w.dbs j).objs.keys) :
    (w.mergeLoop ty i j ow ks).2 = .ok true ∧ Kept ty w (w.mergeLoop ty i j ow ks).1 i j ∧
    (∀ k, (w.mergeLoop ty i j ow ks).1.val i k =
      if k ∈ ks ∧ (ow = true ∨ w.val i k = none) then w.val j k else w.val i k) := by
  induction ks generalizing w with
  | nil => exact ⟨rfl, Kept.refl h, by intro k; simp [mergeLoop]⟩
  | cons k0 ks ih =>
    have hk0 := hks k0 (by simp)
    have hkk := toKey_of_checkName (h.good.keys j k0 hk0)
    have hcj : (w.dbs j).contains ty k0 = true := by
      rw [contains_key hty _ hkk, SMap.has_iff_mem]; exact hk0
    obtain ⟨v, hv⟩ := val_isSome.2 ((SMap.has_iff_mem _ _).2 hk0)
    unfold mergeLoop
    rw [if_pos hcj]
    by_cases hskip : (w.dbs i).contains ty k0 = true ∧ ow = false
    · rw [if_pos hskip]
      obtain ⟨h1, h2, h3⟩ := ih h (fun k hk => hks k (by simp [hk]))
      refine ⟨h1, h2, ?_⟩
      intro k
      rw [h3 k]
      by_cases e : k = k0
      · subst e
        have : ¬ (ow = true ∨ w.val i k = none) := by
          rintro (h | h)
          · rw [hskip.2] at h; cases h
          · rw [val_none, ← contains_key hty _ hkk, hskip.1] at h; cases h
        simp [this]
      · simp [e]
    · rw [if_neg hskip]
      simp only
      -- the world after the optional removal
      have hr : Kept ty w (if (w.dbs i).contains ty k0 = true then (w.remove ty i k0).1 else w) i j ∧
          ∀ k, (if (w.dbs i).contains ty k0 = true then (w.remove ty i k0).1 else w).val i k =
            if k = k0 then none else w.val i k := by
        by_cases hc : (w.dbs i).contains ty k0 = true
        · simp only [hc, if_true]
          obtain ⟨-, g2, g3, g4⟩ := remove_val hty h.top k0
          rw [hkk] at g2
          exact ⟨kept_of_steps hty h (remove_steps ty (fl := ⟨false, false⟩) h.hi k0) (g3 i) g4, g2⟩
        · rw [if_neg hc]
          refine ⟨Kept.refl h, ?_⟩
          intro k; split
          · rename_i e
            rw [e, val_none, ← contains_key hty _ hkk]; simpa using hc
          · rfl
      generalize (if (w.dbs i).contains ty k0 = true then (w.remove ty i k0).1 else w) = w1 at hr
      obtain ⟨r1, r2⟩ := hr
      obtain ⟨c1, c2, c3⟩ := copy_val hty r1.apart (k0 := k0) (v := v) (by rw [r1.val]; exact hv)
      generalize w1.copyObjFrom ty i j k0 k0 = p at *
      obtain ⟨w2, r⟩ := p
      simp only at c1 c2 c3
      subst c1
      simp only
      have hkept := r1.trans c2
      obtain ⟨h1, h2, h3⟩ := ih hkept.apart (fun k hk => by rw [hkept.db]; exact hks k (by simp [hk]))
      refine ⟨h1, hkept.trans h2, ?_⟩
      intro k
      rw [h3 k, hkept.val, c3 k, r2 k]
      by_cases e : k = k0
      · subst e
        have hov : ow = true ∨ w.val i k = none := by
          cases how : ow with
          | true => exact Or.inl rfl
          | false =>
            right; rw [val_none, ← contains_key hty _ hkk]
            cases hcc : (w.dbs i).contains ty k with
            | false => rfl
            | true => exact absurd ⟨hcc, how⟩ hskip
        simp [hov, hv]
      · simp [e]

/-- `deep_copy` into a database of another family. -/
theorem deepCopy_val {ty : ObjType} (hty : ty ≠ .comments) {i j : Nat} (ks : List Name) {w : World T}
    (h : Apart ty w i j) (hks : ∀ k ∈ ks, k ∈ (w.dbs j).objs.keys) :
    (w.deepCopy ty i j ks).2 = .ok true ∧ Kept ty w (w.deepCopy ty i j ks).1 i j ∧
    (∀ k, (w.deepCopy ty i j ks).1.val i k = if k ∈ ks then w.val j k else w.val i k) := by
  induction ks generalizing w with
  | nil => exact ⟨rfl, Kept.refl h, by intro k; simp [deepCopy]⟩
  | cons k0 ks ih =>
    have hk0 := hks k0 (by simp)
    have hkk := toKey_of_checkName (h.good.keys j k0 hk0)
    have hcj : (w.dbs j).contains ty k0 = true := by
      rw [contains_key hty _ hkk, SMap.has_iff_mem]; exact hk0
    obtain ⟨v, hv⟩ := val_isSome.2 ((SMap.has_iff_mem _ _).2 hk0)
    obtain ⟨c1, c2, c3⟩ := copy_val hty h hv
    unfold deepCopy
    rw [if_pos hcj]
    generalize w.copyObjFrom ty i j k0 k0 = p at *
    obtain ⟨w2, r⟩ := p
    simp only at c1 c2 c3
    subst c1
    simp only
    obtain ⟨h1, h2, h3⟩ := ih c2.apart (fun k hk => by rw [c2.db]; exact hks k (by simp [hk]))
    refine ⟨h1, c2.trans h2, ?_⟩
    intro k
    rw [h3 k, c2.val, c3 k]
    by_cases e : k = k0
    · subst e; simp [hv]
    · simp [e]

/-- No operation of the history is called on a database of the family of `j` (at the time of the call). -/
def Leaves (ty : ObjType) (j : Nat) (w : World T) (ops : List (Op T)) : Prop :=
  Never ty (fun w op => ∃ x ∈ op.acts, w.rootOf x = w.rootOf j) w ops

/-- Such a history is not seen in `j`. -/
theorem run_frame {ty : ObjType} (ops : List (Op T)) {w : World T} (hw : w.WF) {j : Nat} (hj : j < w.nDbs)
    (h : Leaves ty j w ops) : (w.run ty ops).dbs j = w.dbs j ∧
      (∀ k a, (w.dbs j).objs.find k = some a → (w.run ty ops).heap a = w.heap a) := by
  induction ops generalizing w with
  | nil => exact ⟨rfl, fun _ _ _ => rfl⟩
  | cons op ops ih =>
    obtain ⟨h1, h2⟩ := h
    have hs := step_steps ty w op
    obtain ⟨g1, g2, -⟩ := hs.frame hw hj (by
      rintro x (hx | hx) e
      · exact h1 ⟨x, hx, e⟩
      · subst hx
        rw [rootOf_ge hw (Nat.le_refl _)] at e
        have := rootOf_lt hw hj; omega)
    obtain ⟨k1, k2⟩ := ih (hs.wf hw) (Nat.lt_of_lt_of_le hj hs.nDbs_le) h2
    refine ⟨k1.trans g1, fun k a hf => ?_⟩
    rw [← g2 k a hf]
    exact k2 k a (by rw [g1]; exact hf)

/-- Operations on databases that are in other families to begin with. -/
theorem leaves_of {ty : ObjType} (ops : List (Op T)) {w : World T} (hw : w.WF) {j : Nat} (hj : j < w.nDbs)
    (P : Nat → Prop) (hP : ∀ x, P x → w.rootOf x ≠ w.rootOf j) (h : ∀ op ∈ ops, ∀ x ∈ op.acts, P x) :
    Leaves ty j w ops := by
  induction ops generalizing w with
  | nil => exact trivial
  | cons op ops ih =>
    have hs := step_steps ty w op
    obtain ⟨-, -, g3⟩ := hs.frame hw hj (by
      rintro x (hx | hx) e
      · exact hP x (h op (by simp) x hx) e
      · subst hx
        rw [rootOf_ge hw (Nat.le_refl _)] at e
        have := rootOf_lt hw hj; omega)
    refine ⟨?_, ih (hs.wf hw) (Nat.lt_of_lt_of_le hj hs.nDbs_le) (fun x hx => g3 x (hP x hx))
      (fun op' ho => h op' (by simp [ho]))⟩
    rintro ⟨x, hx, e⟩
    exact hP x (h op (by simp) x hx) e

theorem look_frame {ty : ObjType} {w w' : World T} {j : Nat} (h1 : w'.dbs j = w.dbs j)
    (h2 : ∀ k a, (w.dbs j).objs.find k = some a → w'.heap a = w.heap a) : w'.look ty j = w.look ty j := by
  funext x
  unfold look
  rw [h1]
  cases h : (w.dbs j).getObjPtr ty x with
  | none => rfl
  | some a =>
    obtain ⟨k, hk⟩ := getObjPtr_some h
    simp [h2 k a hk]

end World
end Iode
