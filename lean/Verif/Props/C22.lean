import Verif.Model.CopyFrom
import Verif.Lemmas.VarsInv

/-!
# C22 — reading objects from several files gives priority to the first file

Specification: `firstOf` looks the name up in the files in order, among the names requested. `C22_copy_from_partial`
shows that after a successful `copy_from` the workspace holds that object, and what it held before under every other
name. The two counterexamples show when the code does not do what is documented.
-/
namespace Iode
open World

/-- The names requested in a file. -/
def Ask.wants (ty : ObjType) (ask : Ask) (keys : List Name) (k : Name) : Prop :=
  match ask with
  | .all => True
  | .empty => False
  | .names f => ∃ x ∈ f keys, toKey ty x = k

instance (ty : ObjType) (ask : Ask) (keys : List Name) (k : Name) : Decidable (ask.wants ty keys k) := by
  unfold Ask.wants
  split <;> infer_instance

/-- The object of the first file having the name among its requested names. -/
def firstOf {T : Type} (ty : ObjType) (ask : Ask) (files : List (SMap T)) (k : Name) : Option T :=
  match files with
  | [] => none
  | f :: fs => if f.has k = true ∧ ask.wants ty f.keys k then f.find k else firstOf ty ask fs k

/-- A file none of whose names is requested makes `copy_from` stop (except for `"*"` and the empty string). -/
def Usable {T : Type} (ty : ObjType) (ask : Ask) (f : SMap T) : Prop :=
  match ask with
  | .names _ => ∃ k, f.has k = true ∧ ask.wants ty f.keys k
  | _ => True

/-- A file as IODE writes it: sorted valid names. -/
def FileOk {T : Type} (ty : ObjType) (f : SMap T) : Prop := SMap.Sorted f ∧ ∀ k ∈ f.keys, checkName ty k = true

theorem apart_create {T : Type} {ty : ObjType} (hty : ty ≠ .comments) {w : World T} (hg : w.Good ty) {i : Nat}
    (hi : i < w.nDbs) (hk : (w.dbs i).kind ≠ .subset) :
    Apart ty (w.create .standalone).1 i w.nDbs ∧ Apart ty (w.create .standalone).1 w.nDbs i ∧
      ∀ k, (w.create .standalone).1.val i k = w.val i k := by
  have hst : Steps ty ⟨false, false⟩ (· = w.nDbs) w (w.create .standalone).1 :=
    Steps.one rfl (Prim.create (i := w.nDbs) false)
  have hg' := hg.steps hty hst
  have hdi : (w.create .standalone).1.dbs i = w.dbs i := by
    rw [create_dbs, if_neg (by omega)]
  have hdn : (w.create .standalone).1.dbs w.nDbs = Db.empty .standalone := by
    rw [create_dbs, if_pos rfl]
  have hki : ((w.create .standalone).1.dbs i).kind ≠ .subset := by rw [hdi]; exact hk
  have hkn : ((w.create .standalone).1.dbs w.nDbs).kind ≠ .subset := by rw [hdn]; simp [Db.empty]
  have hn : (w.create .standalone).1.nDbs = w.nDbs + 1 := rfl
  have hne : (w.create .standalone).1.rootOf i ≠ (w.create .standalone).1.rootOf w.nDbs := by
    rw [rootOf_of_ne hki, rootOf_of_ne hkn]; omega
  refine ⟨⟨hg', by omega, by omega, hki, hne⟩, ⟨hg', by omega, by omega, hkn, hne.symm⟩, ?_⟩
  intro k
  unfold World.val
  rw [hdi]
  rfl

theorem apart_symm {T : Type} {ty : ObjType} {w : World T} {i j : Nat} (h : Apart ty w i j)
    (hj : (w.dbs j).kind ≠ .subset) : Apart ty w j i := ⟨h.good, h.hj, h.hi, hj, h.ne.symm⟩

theorem steps_sorted {T : Type} {ty : ObjType} {fl : Flags} {S : Nat → Prop} {w w' : World T} (hw : w.WF)
    (h : w.AllSorted) (hs : Steps ty fl S w w') : w'.AllSorted := by
  induction hs with
  | refl => exact h
  | tail hs _ hp ih => exact hp.sorted (hs.wf hw) ih

theorem run_sorted {T : Type} [Inhabited T] (ty : ObjType) (hty : ty ≠ .comments) (ops : List (Op T)) :
    ((World.init : World T).run ty ops).AllSorted := by
  have key : ∀ (ops : List (Op T)) (w : World T), w.Good ty → w.AllSorted → (w.run ty ops).AllSorted := by
    intro ops
    induction ops with
    | nil => exact fun w _ h => h
    | cons op ops ih => exact fun w hg h => ih _ (hg.step hty op) (steps_sorted hg.wf h (step_steps ty w op))
  exact key ops _ (good_init ty) (fun _ => trivial)

theorem loadInto_steps {T : Type} (ty : ObjType) {n : Nat} (f : SMap T) {w : World T} (hn : n < w.nDbs) :
    Steps ty ⟨false, false⟩ (· = n) w (loadInto ty n w f) := by
  induction f generalizing w with
  | nil => exact .refl _
  | cons e f ih =>
    have h1 := set_steps ty (fl := ⟨false, false⟩) hn e.1 e.2
    exact h1.trans (ih (Nat.lt_of_lt_of_le hn h1.nDbs_le))

theorem dropFound_steps {T : Type} (ty : ObjType) {n : Nat} (found ks : List Name) {w : World T} (hn : n < w.nDbs) :
    Steps ty ⟨false, false⟩ (· = n) w (dropFound ty n found w ks) := by
  induction ks generalizing w with
  | nil => exact .refl _
  | cons k ks ih =>
    have h1 : Steps ty ⟨false, false⟩ (· = n) w (if k ∈ found then (w.remove ty n k).1 else w) := by
      split
      · exact remove_steps ty hn k
      · exact .refl _
    exact h1.trans (ih (Nat.lt_of_lt_of_le hn h1.nDbs_le))

/-- Loading a file into a fresh database. -/
theorem loadInto_val {T : Type} {ty : ObjType} (hty : ty ≠ .comments) {n i : Nat} (f : SMap T) {w : World T}
    (h : Apart ty w n i) (hok : ∀ k ∈ f.keys, checkName ty k = true) (hs : SMap.Sorted f) :
    Kept ty w (loadInto ty n w f) n i ∧
      (∀ k, (loadInto ty n w f).val n k = if f.has k then f.find k else w.val n k) := by
  induction f generalizing w with
  | nil => exact ⟨Kept.refl h, fun k => rfl⟩
  | cons e f ih =>
    obtain ⟨k0, v0⟩ := e
    obtain ⟨hlt, hs⟩ := hs
    have hc : checkName ty k0 = true := hok k0 (by simp [SMap.keys])
    have hkk := toKey_of_checkName hc
    obtain ⟨-, s2, s3, s4⟩ := set_val hty h.good.wf h.top (name := k0) (by rw [hkk]; exact hc) v0
    have hk1 := kept_of_steps hty h (set_steps ty (fl := ⟨false, false⟩) h.hi k0 v0) (s3 n) s4
    obtain ⟨g1, g2⟩ := ih hk1.apart (fun k hk => hok k (by simp only [SMap.keys, List.map_cons, List.mem_cons]; exact Or.inr hk)) hs
    refine ⟨hk1.trans g1, ?_⟩
    intro k
    have e1 : loadInto ty n w ((k0, v0) :: f) = loadInto ty n (w.set ty n k0 v0).1 f := rfl
    rw [e1, g2 k, s2 k, hkk]
    by_cases e : k = k0
    · subst e
      have : SMap.has k f = false := by
        cases hh : SMap.has k f with
        | false => rfl
        | true =>
          have := hlt k ((SMap.has_iff_mem _ _).1 hh)
          rw [SMap.nameLt_irrefl] at this
          cases this
      rw [this]
      simp [SMap.has, SMap.find]
    · simp [SMap.has, SMap.find, e]

theorem remove_kept {T : Type} {ty : ObjType} (hty : ty ≠ .comments) {w : World T} {n i : Nat} (h : Apart ty w n i)
    (k0 : Name) : Kept ty w (w.remove ty n k0).1 n i := by
  obtain ⟨-, -, g3, g4⟩ := remove_val hty h.top k0
  exact kept_of_steps hty h (remove_steps ty (fl := ⟨false, false⟩) h.hi k0) (g3 n) g4

theorem dropFound_val {T : Type} {ty : ObjType} (hty : ty ≠ .comments) {n i : Nat} (found ks : List Name) {w : World T}
    (h : Apart ty w n i) (hks : ∀ k ∈ ks, toKey ty k = k) :
    Kept ty w (dropFound ty n found w ks) n i ∧
      (∀ k, (dropFound ty n found w ks).val n k = if k ∈ ks ∧ k ∈ found then none else w.val n k) := by
  induction ks generalizing w with
  | nil => exact ⟨Kept.refl h, fun k => by simp [dropFound]⟩
  | cons k0 ks ih =>
    have e1 : dropFound ty n found w (k0 :: ks) =
        dropFound ty n found (if k0 ∈ found then (w.remove ty n k0).1 else w) ks := rfl
    rw [e1]
    by_cases hf : k0 ∈ found
    · rw [if_pos hf]
      have hk1 := remove_kept hty h k0
      obtain ⟨g1, g2⟩ := ih hk1.apart (fun k hk => hks k (List.mem_cons_of_mem _ hk))
      refine ⟨hk1.trans g1, fun k => ?_⟩
      obtain ⟨-, r2, -, -⟩ := remove_val hty h.top k0
      rw [g2 k, r2 k, hks k0 (by simp)]
      by_cases e : k = k0
      · subst e; simp [hf]
      · simp [e]
    · rw [if_neg hf]
      obtain ⟨g1, g2⟩ := ih h (fun k hk => hks k (List.mem_cons_of_mem _ hk))
      refine ⟨g1, fun k => ?_⟩
      rw [g2 k]
      by_cases e : k = k0
      · subst e; simp [hf]
      · simp [e]

/-- The names selected in a file. -/
theorem select_spec {T : Type} {ty : ObjType} (hty : ty ≠ .comments) {w : World T} (hk : w.KeysOk ty) {n : Nat}
    {f : SMap T} (hkeys : ∀ k, w.val n k = if f.has k then f.find k else none)
    (hkeq : (w.dbs n).objs.keys = f.keys) (ask : Ask) :
    (Usable ty ask f → ∃ ks, select ty (w.dbs n) ask = some ks ∧
      ∀ k, k ∈ ks ↔ f.has k = true ∧ ask.wants ty f.keys k) ∧
    (¬ Usable ty ask f → select ty (w.dbs n) ask = none) := by
  have hhas : ∀ k, (w.dbs n).objs.has k = f.has k := by
    intro k
    rw [Bool.eq_iff_iff, SMap.has_iff_mem, SMap.has_iff_mem, hkeq]
  have hgk : ∀ x, (w.dbs n).getKey ty x = if f.has (toKey ty x) then toKey ty x else [] := by
    intro x
    unfold Db.getKey
    split
    · exact absurd rfl hty
    · rw [contains_of_ne hty, toKey_idem, hhas]
  have hne : ∀ k, f.has k = true → k ≠ [] := by
    intro k hh e
    subst e
    have : checkName ty [] = true := hk n [] (by rw [← SMap.has_iff_mem, hhas]; exact hh)
    simp [checkName] at this
  have hmem : ∀ l : List Name, ∀ k, k ∈ (l.map ((w.dbs n).getKey ty)).filter (· ≠ []) ↔
      f.has k = true ∧ ∃ x ∈ l, toKey ty x = k := by
    intro l k
    simp only [List.mem_filter, List.mem_map, decide_eq_true_eq, hgk]
    constructor
    · rintro ⟨⟨x, hx, e⟩, hk⟩
      split at e
      · rename_i hh; exact ⟨by rw [← e]; exact hh, x, hx, e⟩
      · exact absurd e.symm hk
    · rintro ⟨hh, x, hx, e⟩
      exact ⟨⟨x, hx, by rw [e, if_pos hh]⟩, hne k hh⟩
  cases ask with
  | all =>
    refine ⟨fun _ => ⟨_, rfl, fun k => ?_⟩, fun h => absurd trivial h⟩
    rw [← SMap.has_iff_mem, hhas]
    simp [Ask.wants]
  | empty =>
    refine ⟨fun _ => ⟨[], rfl, fun k => ?_⟩, fun h => absurd trivial h⟩
    simp [Ask.wants]
  | names g =>
    have hsel : select ty (w.dbs n) (.names g) =
        if g f.keys = [] then none else filterNames ty (w.dbs n) (some (g f.keys)) := by
      rw [select, hkeq]
    refine ⟨fun hu => ?_, fun hu => ?_⟩
    · obtain ⟨k, hh, x, hx, e⟩ := hu
      have hg : g f.keys ≠ [] := by intro h0; rw [h0] at hx; cases hx
      have hks : ((g f.keys).map ((w.dbs n).getKey ty)).filter (· ≠ []) ≠ [] := by
        intro h0
        have := (hmem (g f.keys) k).2 ⟨hh, x, hx, e⟩
        rw [h0] at this; cases this
      refine ⟨((g f.keys).map ((w.dbs n).getKey ty)).filter (· ≠ []), ?_, hmem (g f.keys)⟩
      rw [hsel, if_neg hg, filterNames]
      exact if_neg (fun h => hks h.2)
    · rw [hsel]
      split
      · rfl
      · rename_i hg
        have hks : ((g f.keys).map ((w.dbs n).getKey ty)).filter (· ≠ []) = [] := by
          rw [List.eq_nil_iff_forall_not_mem]
          intro k hk'
          obtain ⟨hh, x, hx, e⟩ := (hmem (g f.keys) k).1 hk'
          exact hu ⟨k, hh, x, hx, e⟩
        rw [filterNames]
        exact if_pos ⟨hg, hks⟩

theorem sorted_keys_ext {V W : Type} {m : SMap V} {f : SMap W} (hm : SMap.Sorted m) (hf : SMap.Sorted f)
    (h : ∀ k, m.has k = f.has k) : m.keys = f.keys := by
  induction m generalizing f with
  | nil =>
    cases f with
    | nil => rfl
    | cons e f => have := h e.1; simp [SMap.has, SMap.find] at this
  | cons e m ih =>
    obtain ⟨k, v⟩ := e
    cases f with
    | nil => have := h k; simp [SMap.has, SMap.find] at this
    | cons e' f =>
      obtain ⟨k', v'⟩ := e'
      obtain ⟨hm1, hm2⟩ := hm
      obtain ⟨hf1, hf2⟩ := hf
      have hkk : k = k' := by
        apply Decidable.byContradiction
        intro hne
        have h1 : SMap.has k f = true := by
          have := h k
          simp [SMap.has, SMap.find, hne] at this
          exact this
        have h2 : SMap.has k' m = true := by
          have := h k'
          have hne' : ¬ k' = k := fun e => hne e.symm
          simp [SMap.has, SMap.find, hne'] at this
          exact this
        have l1 := hf1 k ((SMap.has_iff_mem _ _).1 h1)
        have l2 := hm1 k' ((SMap.has_iff_mem _ _).1 h2)
        have := SMap.nameLt_trans l1 l2
        rw [SMap.nameLt_irrefl] at this
        cases this
      subst hkk
      have hnot : ∀ {U : Type} {l : SMap U}, (∀ x ∈ l.keys, nameLt k x = true) → SMap.has k l = false := by
        intro U l hl
        cases hh : SMap.has k l with
        | false => rfl
        | true =>
          have := hl k ((SMap.has_iff_mem _ _).1 hh)
          rw [SMap.nameLt_irrefl] at this
          cases this
      have : SMap.keys m = SMap.keys f := ih hm2 hf2 (fun x => by
        by_cases e : x = k
        · subst e; rw [hnot hm1, hnot hf1]
        · have := h x
          simpa [SMap.has, SMap.find, e] using this)
      simpa [SMap.keys] using this

/-- One file. -/
theorem copyFromFile_spec {T : Type} {ty : ObjType} (hty : ty ≠ .comments) {w : World T} (hg : w.Good ty) (hso : w.AllSorted)
    {i : Nat} (hi : i < w.nDbs) (hk : (w.dbs i).kind ≠ .subset) {f : SMap T} (hok : FileOk ty f) (ask : Ask) (found : List Name) :
    (Usable ty ask f → ∃ w' found', copyFromFile ty w i (some f) ask found = (w', .ok true, found') ∧
      w'.Good ty ∧ w'.AllSorted ∧ i < w'.nDbs ∧ (w'.dbs i).kind ≠ .subset ∧
      (∀ k, k ∈ found' ↔ k ∈ found ∨ (f.has k = true ∧ ask.wants ty f.keys k)) ∧
      (∀ k, w'.val i k = if k ∉ found ∧ f.has k = true ∧ ask.wants ty f.keys k then f.find k else w.val i k)) ∧
    (¬ Usable ty ask f → ∃ w', copyFromFile ty w i (some f) ask found = (w', .ok false, found) ∧
      w'.Good ty ∧ w'.AllSorted ∧ i < w'.nDbs ∧ (w'.dbs i).kind ≠ .subset ∧ ∀ k, w'.val i k = w.val i k) := by
  obtain ⟨a1, a2, a3⟩ := apart_create hty hg hi hk
  obtain ⟨l1, l2⟩ := loadInto_val hty f a2 hok.2 hok.1
  have hv0 : ∀ k, (w.create .standalone).1.val w.nDbs k = none := by
    intro k
    unfold World.val
    rw [create_dbs, if_pos rfl]
    rfl
  have hl : ∀ k, (loadInto ty w.nDbs (w.create .standalone).1 f).val w.nDbs k = if f.has k then f.find k else none := by
    intro k; rw [l2 k, hv0 k]
  have hhas : ∀ k, ((loadInto ty w.nDbs (w.create .standalone).1 f).dbs w.nDbs).objs.has k = f.has k := by
    intro k
    have := hl k
    cases hh : f.has k with
    | false => rw [hh] at this; exact val_none.1 this
    | true =>
      rw [hh] at this
      obtain ⟨v, hv⟩ := (SMap.has_iff k f).1 hh
      rw [hv] at this
      exact val_isSome.1 ⟨v, this⟩
  have hso1 : (loadInto ty w.nDbs (w.create .standalone).1 f).AllSorted :=
    steps_sorted a1.good.wf (steps_sorted hg.wf hso (fl := ⟨false, false⟩) (S := (· = w.nDbs))
      (Steps.one rfl (Prim.create (ty := ty) (i := w.nDbs) false)))
      (loadInto_steps ty f (Nat.lt_succ_self _))
  have hkeq := sorted_keys_ext (hso1 w.nDbs) hok.1 hhas
  have hvi : ∀ k, (loadInto ty w.nDbs (w.create .standalone).1 f).val i k = w.val i k := by
    intro k; rw [l1.val k, a3 k]
  have hdbi : (loadInto ty w.nDbs (w.create .standalone).1 f).dbs i = w.dbs i := by
    rw [l1.db, create_dbs, if_neg (by omega)]
  obtain ⟨s1, s2⟩ := select_spec hty l1.apart.good.keys hl hkeq ask
  unfold copyFromFile
  simp only
  generalize loadInto ty w.nDbs (w.create .standalone).1 f = w1 at *
  refine ⟨fun hu => ?_, fun hu => ?_⟩
  · obtain ⟨ks, hks, hmem⟩ := s1 hu
    rw [hks]
    simp only
    have hkey : ∀ k ∈ ks, toKey ty k = k := by
      intro k hk
      exact toKey_of_checkName (hok.2 k ((SMap.has_iff_mem _ _).1 ((hmem k).1 hk).1))
    obtain ⟨d1, d2⟩ := dropFound_val hty found ks l1.apart hkey
    have hki2 : ((dropFound ty w.nDbs found w1 ks).dbs i).kind ≠ .subset := by
      rw [d1.db, hdbi]; exact hk
    have hap := apart_symm d1.apart hki2
    have htodo : ∀ k, k ∈ todo ks found ↔ k ∈ ks ∧ k ∉ found := by
      intro k; simp [todo]
    have hin : ∀ k ∈ todo ks found, k ∈ ((dropFound ty w.nDbs found w1 ks).dbs w.nDbs).objs.keys := by
      intro k hk
      obtain ⟨hk1, hk2⟩ := (htodo k).1 hk
      rw [← SMap.has_iff_mem, ← val_isSome]
      have := d2 k
      rw [if_neg (fun h => hk2 h.2), hl k, ((hmem k).1 hk1).1] at this
      obtain ⟨v, hv⟩ := (SMap.has_iff k f).1 ((hmem k).1 hk1).1
      exact ⟨v, by rw [this]; simpa using hv⟩
    have hso2 := steps_sorted hap.good.wf (steps_sorted l1.apart.good.wf hso1 (dropFound_steps ty found ks l1.apart.hi))
      (mergeLoop_steps ty (fl := ⟨false, false⟩) hap.hi w.nDbs true (todo ks found))
    obtain ⟨m1, m2, m3⟩ := mergeLoop_val hty true (todo ks found) hap hin
    generalize (dropFound ty w.nDbs found w1 ks).mergeLoop ty i w.nDbs true (todo ks found) = p at *
    obtain ⟨w2, r⟩ := p
    simp only at m1 m2 m3 hso2
    subst m1
    refine ⟨w2, _, rfl, m2.apart.good, hso2, m2.apart.hi, m2.apart.top, ?_, ?_⟩
    · intro k
      rw [List.mem_append, htodo, hmem]
      by_cases hf : k ∈ found
      · simp [hf]
      · simp [hf]
    · intro k
      rw [m3 k]
      simp only [true_or, and_true, htodo, hmem]
      by_cases hf : k ∈ found
      · simp [hf, d1.val k, hvi k]
      · by_cases hh : f.has k = true ∧ ask.wants ty f.keys k
        · simp only [hf, not_false_eq_true, hh, and_self, if_true]
          rw [d2 k, if_neg (fun h => hf h.2), hl k, hh.1]
          simp
        · have h1 : ¬ ((f.has k = true ∧ ask.wants ty f.keys k) ∧ k ∉ found) := fun h => hh h.1
          have h2 : ¬ (k ∉ found ∧ f.has k = true ∧ ask.wants ty f.keys k) := fun h => hh h.2
          rw [if_neg h1, if_neg h2, d1.val k, hvi k]
  · rw [s2 hu]
    refine ⟨w1, rfl, l1.apart.good, hso1, l1.apart.hj, by rw [hdbi]; exact hk, hvi⟩

theorem copyLoop_spec {T : Type} {ty : ObjType} (hty : ty ≠ .comments) (ask : Ask) (files : List (SMap T))
    (hok : ∀ f ∈ files, FileOk ty f) (hus : ∀ f ∈ files, Usable ty ask f) (rest : List (Option (SMap T)))
    {w : World T} (hg : w.Good ty) (hso : w.AllSorted) {i : Nat} (hi : i < w.nDbs) (hk : (w.dbs i).kind ≠ .subset) (found : List Name) :
    ∃ w' found', World.copyLoop ty w i ask found (files.map some ++ rest) = World.copyLoop ty w' i ask found' rest ∧
      w'.Good ty ∧ w'.AllSorted ∧ i < w'.nDbs ∧ (w'.dbs i).kind ≠ .subset ∧
      ∀ k, w'.val i k = if k ∈ found then w.val i k else
        match firstOf ty ask files k with
        | some v => some v
        | none => w.val i k := by
  induction files generalizing w found with
  | nil => exact ⟨w, found, rfl, hg, hso, hi, hk, fun k => by simp [firstOf]⟩
  | cons f fs ih =>
    obtain ⟨w1, found1, he, g1, o1, i1, k1, hf1, hv1⟩ :=
      (copyFromFile_spec hty hg hso hi hk (hok f (by simp)) ask found).1 (hus f (by simp))
    obtain ⟨w2, found2, he2, g2, o2, i2, k2, hv2⟩ := ih (fun x hx => hok x (List.mem_cons_of_mem _ hx))
      (fun x hx => hus x (List.mem_cons_of_mem _ hx)) g1 o1 i1 k1 found1
    refine ⟨w2, found2, ?_, g2, o2, i2, k2, ?_⟩
    · rw [List.map_cons, List.cons_append, World.copyLoop, he]
      exact he2
    · intro k
      rw [hv2 k, hv1 k]
      by_cases hfk : k ∈ found
      · have : k ∈ found1 := (hf1 k).2 (Or.inl hfk)
        simp [this, hfk]
      · by_cases hw : f.has k = true ∧ ask.wants ty f.keys k
        · have : k ∈ found1 := (hf1 k).2 (Or.inr hw)
          obtain ⟨v, hv⟩ := (SMap.has_iff k f).1 hw.1
          simp [this, hfk, hw, firstOf, hv]
        · have hn : k ∉ found1 := by
            intro h
            rcases (hf1 k).1 h with h | h
            · exact hfk h
            · exact hw h
          have h2 : ¬ (k ∉ found ∧ f.has k = true ∧ ask.wants ty f.keys k) := fun h => hw h.2
          rw [if_neg hn, if_neg hfk, if_neg h2, firstOf, if_neg hw]

/-- C22 (partial): in every reachable state, for every type but comments and variables, a top-level workspace
    that reads from files all of which can be loaded and contain at least one requested name holds afterwards,
    under each requested name some file has, the object of the first such file, and under every other name what it
    held before.
    Missing: comments (names differing by case only), subsets, variables (they are merged by another function, see
    `C22_variables_counterexample`), and the files without any requested name, for which the claim is false. -/
theorem C22_copy_from_partial {T : Type} [Inhabited T] (ty : ObjType) (hty : ty ≠ .comments) (before : List (Op T))
    (i : Nat) (hi : i < ((World.init : World T).run ty before).nDbs)
    (hk : (((World.init : World T).run ty before).dbs i).kind ≠ .subset)
    (files : List (SMap T)) (hne : files ≠ []) (ask : Ask) (hok : ∀ f ∈ files, FileOk ty f)
    (hus : ∀ f ∈ files, Usable ty ask f) :
    let w := (World.init : World T).run ty before
    (w.copyFrom ty i (files.map some) ask).2 = .ok true ∧
    ∀ name, (w.copyFrom ty i (files.map some) ask).1.look ty i name =
      match firstOf ty ask files (toKey ty name) with
      | some v => some v
      | none => w.look ty i name := by
  have hg := (good_init (T := T) ty).run hty before
  have hso := run_sorted (T := T) ty hty before
  simp only
  generalize (World.init : World T).run ty before = w at *
  obtain ⟨w', found', he, g, -, -, -, hv⟩ := copyLoop_spec hty ask files hok hus [] hg hso hi hk []
  have hc : w.copyFrom ty i (files.map some) ask = (w', .ok true) := by
    rw [World.copyFrom, if_neg (by simpa using hne), ← List.append_nil (files.map some), he]
    rfl
  rw [hc]
  refine ⟨rfl, fun name => ?_⟩
  rw [look_eq hty g.keys, hv (toKey ty name), look_eq hty hg.keys]
  simp

/-- C22: what happens at the first file that cannot be loaded or has no requested name: `copy_from` returns false,
    with the files before it read and the files after it ignored. -/
theorem C22_stops {T : Type} [Inhabited T] (ty : ObjType) (hty : ty ≠ .comments) (before : List (Op T))
    (i : Nat) (hi : i < ((World.init : World T).run ty before).nDbs)
    (hk : (((World.init : World T).run ty before).dbs i).kind ≠ .subset)
    (files : List (SMap T)) (bad : Option (SMap T)) (rest : List (Option (SMap T))) (ask : Ask)
    (hok : ∀ f ∈ files, FileOk ty f) (hus : ∀ f ∈ files, Usable ty ask f)
    (hbad : ∀ f, bad = some f → FileOk ty f ∧ ¬ Usable ty ask f) :
    let w := (World.init : World T).run ty before
    (w.copyFrom ty i (files.map some ++ bad :: rest) ask).2 = .ok false ∧
    ∀ name, (w.copyFrom ty i (files.map some ++ bad :: rest) ask).1.look ty i name =
      match firstOf ty ask files (toKey ty name) with
      | some v => some v
      | none => w.look ty i name := by
  have hg := (good_init (T := T) ty).run hty before
  have hso := run_sorted (T := T) ty hty before
  simp only
  generalize (World.init : World T).run ty before = w at *
  obtain ⟨w', found', he, g, so', hi', hk', hv⟩ := copyLoop_spec hty ask files hok hus (bad :: rest) hg hso hi hk []
  have hc : w.copyFrom ty i (files.map some ++ bad :: rest) ask = World.copyLoop ty w' i ask found' (bad :: rest) := by
    rw [World.copyFrom, if_neg (by simp), he]
  have hb : ∃ w2, World.copyLoop ty w' i ask found' (bad :: rest) = (w2, .ok false) ∧ w2.KeysOk ty ∧
      ∀ k, w2.val i k = w'.val i k := by
    cases bad with
    | none => exact ⟨w', rfl, g.keys, fun _ => rfl⟩
    | some f =>
      obtain ⟨h1, h2⟩ := hbad f rfl
      obtain ⟨w2, e2, g2, -, -, -, v2⟩ := (copyFromFile_spec hty g so' hi' hk' h1 ask found').2 h2
      exact ⟨w2, by rw [World.copyLoop, e2], g2.keys, v2⟩
  obtain ⟨w2, e2, kk2, v2⟩ := hb
  rw [hc, e2]
  refine ⟨rfl, fun name => ?_⟩
  rw [look_eq hty kk2, v2, hv (toKey ty name), look_eq hty hg.keys]
  simp

/-- C22 counterexample: the name asked for is in the second file only. The search stops at the first file, which
    has no requested name, and the object is not read. -/
theorem C22_later_file_counterexample :
    let w := (World.init : World Nat).run .scalars [.create true]
    let files : List (SMap Nat) := [[("other".toList, 1)], [("alpha".toList, 7)]]
    let r := w.copyFrom .scalars 0 (files.map some) (.names fun _ => ["alpha".toList])
    firstOf .scalars (.names fun _ => ["alpha".toList]) files "alpha".toList = some 7 ∧
    r.2 = .ok false ∧ r.1.look .scalars 0 "alpha".toList = none := by decide +kernel

/-- C22 counterexample: variables. Only `A` is asked for, the file also holds `B`, and the `B` of the workspace is
    replaced. -/
theorem C22_variables_counterexample :
    let s : Sample := ⟨⟨2000, 1, 'Y'⟩, ⟨2001, 1, 'Y'⟩, 2⟩
    let v := (VWorld.init : VWorld Nat).run 0 [.create true, .setSample 0 s, .set 0 "B".toList [1, 2]]
    let r := v.copyFromFile 0 0 ⟨s, [("A".toList, [5, 6]), ("B".toList, [7, 8])]⟩ (.names fun _ => ["A".toList]) []
    v.look 0 "B".toList = some [1, 2] ∧ r.2.1 = .ok true ∧ r.1.look 0 "A".toList = some [5, 6] ∧
    r.1.look 0 "B".toList = some [7, 8] := by decide +kernel

/-- Two files sharing a name, a literal name list, a workspace that already has one of the names. -/
example :
    let w := (World.init : World Nat).run .lists [.create true, .set 0 "B".toList 1, .set 0 "Z".toList 9]
    let files : List (SMap Nat) := [[("A".toList, 2), ("C".toList, 3)], [("A".toList, 4), ("B".toList, 5), ("Z".toList, 6)]]
    let ask : Ask := .names fun _ => ["a".toList, "b".toList]
    let r := w.copyFrom .lists 0 (files.map some) ask
    r.2 = .ok true ∧ r.1.look .lists 0 "A".toList = some 2 ∧ r.1.look .lists 0 "B".toList = some 5 ∧
    r.1.look .lists 0 "C".toList = none ∧ r.1.look .lists 0 "Z".toList = some 9 := by decide +kernel

/-- Its files meet the hypotheses. -/
example : Usable .lists (.names fun _ => ["a".toList, "b".toList]) [("A".toList, 2), ("C".toList, 3)] ∧
    FileOk .lists [("A".toList, 4), ("B".toList, 5), ("Z".toList, 6)] := by
  refine ⟨⟨"A".toList, by decide, "a".toList, by decide, by decide⟩, ?_, ?_⟩
  · refine ⟨?_, ?_, ?_, trivial⟩ <;> decide
  · decide

end Iode
