import Verif.Spec.Compare
import Verif.Props.C65
import Mathlib.Algebra.Order.Field.Rat
import Mathlib.Algebra.Order.AbsoluteValue.Basic
import Mathlib.Tactic.Linarith
import Mathlib.Tactic.NormNum

/-!
# C66: the comparison of a workspace with a file
-/
namespace Iode.Compare

open Iode.Args (Text Single Ordinary seps)

/-! ## Values -/

/-- Two values are equal for the comparison exactly if they meet the test of the manual. -/
theorem C66_value {eps : Rat} (h : 0 < eps) (x y : Rat) : cmpVal eps x y = true ↔ Close eps x y := by
  unfold cmpVal Close
  by_cases hxy : x = y
  · subst hxy
    simp only [if_true, true_iff]
    by_cases hx : x = 0
    · right; simp [hx, h]
    · left; simp [hx, h]
  · rw [if_neg hxy]
    by_cases hx : x = 0
    · simp [hx]
    · simp [hx]

/-- The threshold is always between 1e-15 and 1, and it is the number given if that is. -/
theorem C66_eps (x : Rat) : 1 / 10 ^ 15 ≤ setEps x ∧ setEps x ≤ 1 ∧ (1 / 10 ^ 15 ≤ x → x ≤ 1 → setEps x = x) := by
  unfold setEps
  refine ⟨?_, ?_, fun h1 h2 => ?_⟩
  · dsimp only
    split <;> split <;> norm_num at * <;> linarith
  · dsimp only
    split <;> split <;> norm_num at * <;> linarith
  · dsimp only
    rw [if_neg (not_lt.mpr h1), if_neg (not_lt.mpr h2)]

/-- Two variables are equal for the comparison exactly if all their values in the periods of the workspace are. -/
theorem C66_variable {eps : Rat} (h : 0 < eps) : ∀ (n : Nat) (a b : List Rat),
    cmpVar eps n a b = .ok true ↔ ∀ i < n, ∃ x y, a[i]? = some x ∧ b[i]? = some y ∧ Close eps x y
  | 0, a, b => by simp [cmpVar]
  | n + 1, [], b => by
    rw [show cmpVar eps (n + 1) [] b = .ub by rfl]
    constructor
    · intro h; simp at h
    · intro h
      obtain ⟨x, y, h1, _⟩ := h 0 (by omega)
      simp at h1
  | n + 1, x :: a, [] => by
    rw [show cmpVar eps (n + 1) (x :: a) [] = .ub by rfl]
    constructor
    · intro h; simp at h
    · intro h
      obtain ⟨x, y, _, h1, _⟩ := h 0 (by omega)
      simp at h1
  | n + 1, x :: a, y :: b => by
    rw [cmpVar]
    by_cases hc : cmpVal eps x y = true
    · rw [if_pos hc, C66_variable h n a b]
      constructor
      · intro hi i hn
        cases i with
        | zero => exact ⟨x, y, rfl, rfl, (C66_value h x y).mp hc⟩
        | succ i => simpa using hi i (by omega)
      · intro hi i hn
        simpa using hi (i + 1) (by omega)
    · rw [if_neg hc]
      constructor
      · intro h; simp at h
      · intro hi
        obtain ⟨x', y', h1, h2, h3⟩ := hi 0 (by omega)
        simp only [List.getElem?_cons_zero, Option.some.injEq] at h1 h2
        rw [h1, h2] at hc
        exact absurd ((C66_value h x' y').mpr h3) hc

/-- A variable is equal to itself. -/
theorem C66_variable_self {eps : Rat} (h : 0 < eps) (a : List Rat) : cmpVar eps a.length a a = .ok true :=
  (C66_variable h _ a a).mpr fun i hi => ⟨a[i], a[i], by simp [hi], by simp [hi], (C66_value h _ _).mp (by simp [cmpVal])⟩

/-! ## Objects -/

/-- Scalars are equal when value, relaxation and standard error are. -/
theorem C66_scalar (v r d v' r' d' : Rat) : eqScl (v, r, d) (v', r', d') = true ↔ v = v' ∧ r = r' ∧ d = d' := by
  simp [eqScl, and_assoc]

example : eqScl (1, 1, 2) (1, 1, 3) = false ∧ eqScl (1, 1, 2) (1, 1, 2) = true := by decide +kernel

/-- Equations are equal exactly if they have the same formula, which can be compiled, method, sample, block and instruments. -/
theorem C66_equation (valid : Obj.Text → Bool) (a b : Obj.Eqn) : eqEqn valid a b = true ↔
    a.lec = b.lec ∧ valid a.lec = true ∧ a.method = b.method ∧ a.sample = b.sample ∧ a.block = b.block ∧ a.instruments = b.instruments := by
  simp [eqEqn, and_assoc]

theorem eqLine_regular {a b : Tbl.Line} (ha : Regular a) (hb : Regular b) : eqLine a b = .ok (decide (a = b)) := by
  obtain ⟨t, g, r, c⟩ := a
  obtain ⟨t', g', r', c'⟩ := b
  unfold eqLine Regular at *
  simp only [Tbl.Line.mk.injEq]
  by_cases h : t = t' ∧ r = r' ∧ g = g'
  · obtain ⟨rfl, rfl, rfl⟩ := h
    simp only [ne_eq, not_true_eq_false, or_self, if_false]
    by_cases h1 : t = Tbl.tTitle
    · rw [if_pos h1] at *
      obtain ⟨x, rfl⟩ := List.length_eq_one_iff.mp ha
      obtain ⟨y, rfl⟩ := List.length_eq_one_iff.mp hb
      simp
    · rw [if_neg h1] at *
      by_cases h2 : t = Tbl.tCell
      · simp [h2]
      · rw [if_neg h2] at *
        simp only at ha hb
        simp [ha, hb]
  · have h' : t ≠ t' ∨ r ≠ r' ∨ g ≠ g' := by
      by_contra hc
      simp only [ne_eq, not_or, not_not] at hc
      exact h hc
    rw [if_pos h']
    have : ¬ (t = t' ∧ g = g' ∧ r = r' ∧ c = c') := fun e => h ⟨e.1, e.2.2.1, e.2.1⟩
    simp [this]

theorem eqLines_regular : ∀ {a b : List Tbl.Line}, (∀ l ∈ a, Regular l) → (∀ l ∈ b, Regular l) → a.length = b.length → eqLines a b = .ok (decide (a = b))
  | [], [], _, _, _ => by simp [eqLines]
  | [], _ :: _, _, _, h => by simp at h
  | _ :: _, [], _, _, h => by simp at h
  | x :: a, y :: b, ha, hb, h => by
    rw [eqLines, eqLine_regular (ha x (by simp)) (hb y (by simp)), Args.bind_ok]
    by_cases e : x = y
    · rw [if_pos (by simpa using e), eqLines_regular (fun l hl => ha l (by simp [hl])) (fun l hl => hb l (by simp [hl])) (by simpa using h)]
      simp [e]
    · rw [if_neg (by simpa using e)]
      simp [e]

/-- Tables whose two grids are the same are equal exactly if they are the same table. -/
theorem C66_table {a b : Tbl.Table} (ha : ∀ l ∈ a.divider :: a.lines, Regular l) (hb : ∀ l ∈ b.divider :: b.lines, Regular l) (hga : a.gridx = a.gridy)
    (hgb : b.gridx = b.gridy) : eqTbl a b = .ok (decide (a = b)) := by
  unfold eqTbl
  by_cases h : a.language ≠ b.language ∨ a.repeatCols ≠ b.repeatCols ∨ a.ncols ≠ b.ncols
  · rw [if_pos h]
    have : a ≠ b := fun e => by rw [e] at h; simp at h
    simp [this]
  · rw [if_neg h, eqLine_regular (ha _ (by simp)) (hb _ (by simp)), Args.bind_ok]
    by_cases h2 : decide (a.divider = b.divider) = false ∨ a.lines.length ≠ b.lines.length
    · rw [if_pos h2]
      have : a ≠ b := fun e => by rw [e] at h2; simp at h2
      simp [this]
    · rw [if_neg h2]
      simp only [ne_eq, not_or, not_not, decide_eq_false_iff_not] at h h2
      rw [eqLines_regular (fun l hl => ha l (by simp [hl])) (fun l hl => hb l (by simp [hl])) h2.2, Args.bind_ok]
      congr 1
      rw [Bool.eq_iff_iff]
      simp only [Bool.and_eq_true, decide_eq_true_eq]
      constructor
      · rintro ⟨hl, h1, h2', h3, h4, h5, h6, h7, h8, h9, h10, h11⟩
        obtain ⟨q1, q2, q3, q4, q5, q6, q7, q8, q9, q10, q11, q12, q13, q14, q15, q16⟩ := a
        obtain ⟨r1, r2, r3, r4, r5, r6, r7, r8, r9, r10, r11, r12, r13, r14, r15, r16⟩ := b
        simp only [Tbl.Table.mk.injEq] at *
        simp_all
      · rintro rfl
        simp [hga]

/-! ## Lists -/

variable {V : Type}

theorem sorted_keys : ∀ {m : SMap V}, SMap.Sorted m → m.keys.Pairwise fun x y => nameLt x y = true
  | [], _ => by simp [SMap.keys]
  | (k, v) :: m, h => by
    rw [SMap.keys, List.map_cons, List.pairwise_cons]
    exact ⟨h.1, sorted_keys h.2⟩

/-- What the loop should give. -/
def LoopSpec (eqv : V → V → Res Bool) (P : V → V → Prop) (k1 k0 : SMap V) (xs : List Text) (k2 : SMap V) (f : Four) : Prop :=
    ∃ g k3, loop eqv k1 xs k2 f = .ok (g, k3) ∧ g.l2 = f.l2 ∧ (∃ p1 p3 p4 : Text → Bool,
      g.l1 = f.l1 ++ xs.filter p1 ∧ g.l3 = f.l3 ++ xs.filter p3 ∧ g.l4 = f.l4 ++ xs.filter p4 ∧
      (∀ x ∈ xs, p1 x = true ↔ k0.find x = none) ∧ (∀ x ∈ xs, p3 x = true ↔ ∃ a b, k1.find x = some a ∧ k0.find x = some b ∧ P a b) ∧
      (∀ x ∈ xs, p4 x = true ↔ ∃ a b, k1.find x = some a ∧ k0.find x = some b ∧ ¬ P a b)) ∧
      (∀ w, k3.find w = if w ∈ xs then none else k2.find w) ∧ (SMap.Sorted k2 → SMap.Sorted k3)

/-- The loop, with what the workspace and the file contain. -/
theorem loop_spec {eqv : V → V → Res Bool} {P : V → V → Prop} (k1 : SMap V) (k0 : SMap V)
    (he : ∀ w a b, k1.find w = some a → k0.find w = some b → ∃ e, eqv a b = .ok e ∧ (e = true ↔ P a b)) :
    ∀ (xs : List Text) (k2 : SMap V) (f : Four), (∀ x ∈ xs, ∃ a, k1.find x = some a) → xs.Nodup → (∀ x ∈ xs, k2.find x = k0.find x) →
    LoopSpec eqv P k1 k0 xs k2 f := by
  intro xs
  induction xs with
  | nil =>
    intro k2 f _ _ _
    exact ⟨f, k2, rfl, rfl, ⟨fun _ => true, fun _ => true, fun _ => true, by simp, by simp, by simp, by simp, by simp, by simp⟩, by simp, id⟩
  | cons x xs ih =>
    intro k2 f h1 hn h2
    obtain ⟨a, ha⟩ := h1 x (by simp)
    rw [List.nodup_cons] at hn
    have hne : ∀ y ∈ xs, y ≠ x := fun y hy e => hn.1 (e ▸ hy)
    have h2x := h2 x (by simp)
    -- one more name, with its code
    have go : ∀ (rc : Nat) (k2' : SMap V) (q1 q3 q4 : Bool), compare eqv x k1 k2 = .ok rc → (if rc > 2 then k2.erase x else k2) = k2' →
        (f.add rc x).l2 = f.l2 → (f.add rc x).l1 = f.l1 ++ (if q1 then [x] else []) → (f.add rc x).l3 = f.l3 ++ (if q3 then [x] else []) →
        (f.add rc x).l4 = f.l4 ++ (if q4 then [x] else []) → (q1 = true ↔ k0.find x = none) →
        (q3 = true ↔ ∃ a b, k1.find x = some a ∧ k0.find x = some b ∧ P a b) → (q4 = true ↔ ∃ a b, k1.find x = some a ∧ k0.find x = some b ∧ ¬ P a b) →
        (∀ w, k2'.find w = if w = x then none else k2.find w) → (SMap.Sorted k2 → SMap.Sorted k2') → LoopSpec eqv P k1 k0 (x :: xs) k2 f := by
      intro rc k2' q1 q3 q4 hrc hk hl2 hl1 hl3 hl4 hq1 hq3 hq4 hfind hsort
      obtain ⟨g, k3, e, hg2, ⟨p1, p3, p4, e1, e3, e4, i1, i3, i4⟩, hf, hs⟩ := ih k2' (f.add rc x) (fun y hy => h1 y (by simp [hy])) hn.2
        (fun y hy => by rw [hfind y, if_neg (hne y hy), h2 y (by simp [hy])])
      have upd : ∀ (q : Bool) (p : Text → Bool), (x :: xs).filter (fun y => if y = x then q else p y) = (if q then [x] else []) ++ xs.filter p := by
        intro q p
        rw [List.filter_cons, List.filter_congr (q := p) fun y hy => by rw [if_neg (hne y hy)]]
        cases q <;> simp
      refine ⟨g, k3, ?_, hg2.trans hl2, ⟨fun y => if y = x then q1 else p1 y, fun y => if y = x then q3 else p3 y, fun y => if y = x then q4 else p4 y,
        ?_, ?_, ?_, ?_, ?_, ?_⟩, ?_, fun h => hs (hsort h)⟩
      · rw [loop, hrc, Args.bind_ok, hk, e]
      · rw [e1, hl1, upd, List.append_assoc]
      · rw [e3, hl3, upd, List.append_assoc]
      · rw [e4, hl4, upd, List.append_assoc]
      · intro y hy
        rcases List.mem_cons.mp hy with rfl | hy
        · simpa using hq1
        · simpa [hne y hy] using i1 y hy
      · intro y hy
        rcases List.mem_cons.mp hy with rfl | hy
        · simpa using hq3
        · simpa [hne y hy] using i3 y hy
      · intro y hy
        rcases List.mem_cons.mp hy with rfl | hy
        · simpa using hq4
        · simpa [hne y hy] using i4 y hy
      · intro w
        rw [hf w]
        by_cases hw : w ∈ xs
        · simp [hw]
        · by_cases hwx : w = x <;> simp [hw, hwx, hfind]
    cases hb : k0.find x with
    | none =>
      rw [hb] at h2x
      refine go 1 k2 true false false (by simp [compare, ha, h2x]) (by simp) rfl (by simp [Four.add]) (by simp [Four.add]) (by simp [Four.add]) (by simp [hb])
        (by simp [hb]) (by simp [hb]) (fun w => ?_) id
      by_cases hw : w = x <;> simp [hw, h2x]
    | some b =>
      rw [hb] at h2x
      obtain ⟨e, he1, he2⟩ := he x a b ha hb
      have hfe : ∀ w, (SMap.erase x k2).find w = if w = x then none else k2.find w := fun w => by
        rw [SMap.find_erase]
      cases e with
      | true =>
        have hP := he2.mp rfl
        exact go 3 (k2.erase x) false true false (by simp [compare, ha, h2x, he1, Res.bind]) (by simp) rfl (by simp [Four.add]) (by simp [Four.add])
          (by simp [Four.add]) (by simp [hb]) (by simp [hb, ha, hP]) (by simp [hb, ha, hP]) hfe (SMap.sorted_erase x k2)
      | false =>
        have hP : ¬ P a b := fun h => by simpa using he2.mpr h
        exact go 4 (k2.erase x) false false true (by simp [compare, ha, h2x, he1, Res.bind]) (by simp) rfl (by simp [Four.add]) (by simp [Four.add])
          (by simp [Four.add]) (by simp [hb]) (by simp [hb, ha, hP]) (by simp [hb, ha, hP]) hfe (SMap.sorted_erase x k2)

/-- Each name of the workspace and of the file goes to the list it should be in, once, in the order of the names. -/
theorem C66_four {eqv : V → V → Res Bool} {P : V → V → Prop} {k1 k2 : SMap V} (h1 : SMap.Sorted k1) (h2 : SMap.Sorted k2)
    (he : ∀ w a b, k1.find w = some a → k2.find w = some b → ∃ e, eqv a b = .ok e ∧ (e = true ↔ P a b)) :
    ∃ f, four eqv k1 k2 = .ok f ∧ Parts P k1 k2 f := by
  have hs1 := sorted_keys h1
  have hnd : k1.keys.Nodup := hs1.imp fun h e => by rw [e, SMap.nameLt_irrefl] at h; simp at h
  obtain ⟨g, k3, e, hl2, ⟨p1, p3, p4, e1, e3, e4, i1, i3, i4⟩, hf, hs⟩ := loop_spec (P := P) k1 k2 he k1.keys k2 ⟨[], [], [], []⟩
    (fun x hx => (SMap.mem_keys_iff x k1).mp hx) hnd (fun _ _ => rfl)
  simp only [List.nil_append] at e1 e3 e4
  refine ⟨{ g with l2 := g.l2 ++ k3.keys }, by rw [four, e, Args.bind_ok], ?_⟩
  have mem : ∀ (p : Text → Bool) (w : Text), w ∈ k1.keys.filter p ↔ (∃ a, k1.find w = some a) ∧ p w = true := fun p w => by
    rw [List.mem_filter, SMap.mem_keys_iff]
  constructor
  · intro w
    simp only [e1, mem]
    constructor
    · rintro ⟨h, h'⟩; exact ⟨h, (i1 w ((SMap.mem_keys_iff w k1).mpr h)).mp h'⟩
    · rintro ⟨h, h'⟩; exact ⟨h, (i1 w ((SMap.mem_keys_iff w k1).mpr h)).mpr h'⟩
  · intro w
    simp only [hl2, List.nil_append, SMap.mem_keys_iff, hf]
    constructor
    · rintro ⟨b, hb⟩
      split at hb
      · simp at hb
      · rename_i hw
        refine ⟨?_, b, hb⟩
        cases h : k1.find w with
        | none => rfl
        | some a => exact absurd ((SMap.mem_keys_iff w k1).mpr ⟨a, h⟩) hw
    · rintro ⟨h, b, hb⟩
      refine ⟨b, ?_⟩
      rw [if_neg, hb]
      intro hm
      obtain ⟨a, ha⟩ := (SMap.mem_keys_iff w k1).mp hm
      rw [h] at ha; simp at ha
  · intro w
    simp only [e3, mem]
    constructor
    · rintro ⟨h, h'⟩; exact (i3 w ((SMap.mem_keys_iff w k1).mpr h)).mp h'
    · rintro ⟨a, b, ha, h'⟩; exact ⟨⟨a, ha⟩, (i3 w ((SMap.mem_keys_iff w k1).mpr ⟨a, ha⟩)).mpr ⟨a, b, ha, h'⟩⟩
  · intro w
    simp only [e4, mem]
    constructor
    · rintro ⟨h, h'⟩; exact (i4 w ((SMap.mem_keys_iff w k1).mpr h)).mp h'
    · rintro ⟨a, b, ha, h'⟩; exact ⟨⟨a, ha⟩, (i4 w ((SMap.mem_keys_iff w k1).mpr ⟨a, ha⟩)).mpr ⟨a, b, ha, h'⟩⟩
  · intro l hl
    simp only [List.mem_cons, List.not_mem_nil, or_false] at hl
    rcases hl with rfl | rfl | rfl | rfl
    · rw [e1]; exact hs1.filter _
    · simp only [hl2, List.nil_append]; exact sorted_keys (hs h2)
    · rw [e3]; exact hs1.filter _
    · rw [e4]; exact hs1.filter _

/-- A name of an object is a word of a list. -/
theorem name_word {ty : ObjType} {k : Text} (h : checkName ty k = true) : Single seps k ∧ Ordinary k := by
  have bad : ∀ c : Char, c ∈ [' ', ',', ';', '\n', '\t', '\r', '"', '$', '@'] → nameTailOk ty c = false ∧ nameHeadOk ty c = false := by
    cases ty <;> decide
  cases k with
  | nil => simp [checkName] at h
  | cons c cs =>
    simp only [checkName, Bool.and_eq_true, decide_eq_true_eq, List.all_eq_true] at h
    obtain ⟨⟨⟨h1, h2⟩, h3⟩, _⟩ := h
    have tail : ∀ x ∈ c :: cs, x ∉ [' ', ',', ';', '\n', '\t', '\r', '"', '$', '@'] := by
      intro x hx hb
      rcases List.mem_cons.mp hx with rfl | hx
      · rw [(bad x hb).2] at h2; simp at h2
      · have := h3 x hx; rw [(bad x hb).1] at this; simp at this
    refine ⟨⟨by simp, fun x hx => ⟨fun hm => tail x hx ?_, fun e => tail x hx (by simp [e])⟩, by omega⟩, fun e => ?_, fun e => ?_⟩
    · unfold seps at hm
      simp only [List.mem_cons, List.not_mem_nil, or_false] at hm ⊢
      rcases hm with h | h | h | h | h | h <;> simp [h]
    · simp only [List.head?_cons, Option.some.injEq] at e; exact tail c (by simp) (by simp [e])
    · simp only [List.head?_cons, Option.some.injEq] at e; exact tail c (by simp) (by simp [e])

theorem split_few {st : Lists.Store} {name : Text} {l : List Text} (hv : checkName .lists (toKey .lists name) = true) (hl : l.length < 10000) :
    Lists.split st name l 10000 = .ok ⟨st.insert (toKey .lists name) (Lists.join l), true⟩ := by
  have hset : ∀ t, Lists.setOut st name t = ⟨st.insert (toKey .lists name) t, true⟩ := fun t => by simp [Lists.setOut, Lists.put, hv]
  unfold Lists.split
  by_cases h0 : l.length = 0
  · rw [if_pos h0, hset, List.length_eq_zero_iff.mp h0]; rfl
  · rw [if_neg h0, if_pos (Or.inl (by exact_mod_cast hl)), hset]

/-- The four lists contain, when they are read, the names that they should; no other list changes. -/
theorem C66_lists {eqv : V → V → Res Bool} {P : V → V → Prop} {k1 k2 : SMap V} {ty : ObjType} (file : Text → Option Text) (st : Lists.Store)
    (h1 : SMap.Sorted k1) (h2 : SMap.Sorted k2) (hn1 : ∀ w ∈ k1.keys, checkName ty w = true) (hn2 : ∀ w ∈ k2.keys, checkName ty w = true)
    (he : ∀ w a b, k1.find w = some a → k2.find w = some b → ∃ e, eqv a b = .ok e ∧ (e = true ↔ P a b)) (h0 : k2 ≠ [])
    (hl1 : k1.length < 10000) (hl2 : k2.length < 10000) {one two three for_ : Text}
    (hv : ∀ x ∈ [one, two, three, for_], checkName .lists (toKey .lists x) = true ∧ Single seps ('$' :: x))
    (hd : ([one, two, three, for_].map (toKey .lists)).Nodup) :
    ∃ f st', dataCompare eqv k1 k2 st one two three for_ = .ok ⟨st', true⟩ ∧ Parts P k1 k2 f ∧
      Args.init (LstCalc.world file st') ('$' :: one) = .ok (some f.l1) ∧ Args.init (LstCalc.world file st') ('$' :: two) = .ok (some f.l2) ∧
      Args.init (LstCalc.world file st') ('$' :: three) = .ok (some f.l3) ∧ Args.init (LstCalc.world file st') ('$' :: for_) = .ok (some f.l4) ∧
      ∀ k, k ∉ [one, two, three, for_].map (toKey .lists) → SMap.find k st' = SMap.find k st := by
  obtain ⟨f, hf, hp⟩ := C66_four h1 h2 he
  have nodup : ∀ l ∈ [f.l1, f.l2, f.l3, f.l4], l.Nodup := fun l hl => (hp.sorted l hl).imp fun h e => by rw [e, SMap.nameLt_irrefl] at h; simp at h
  have hk1 : ∀ w, (∃ a, k1.find w = some a) → w ∈ k1.keys := fun w h => (SMap.mem_keys_iff w k1).mpr h
  have hk2 : ∀ w, (∃ a, k2.find w = some a) → w ∈ k2.keys := fun w h => (SMap.mem_keys_iff w k2).mpr h
  have m1 : ∀ w ∈ f.l1, w ∈ k1.keys := fun w hw => hk1 w ((hp.one w).mp hw).1
  have m2 : ∀ w ∈ f.l2, w ∈ k2.keys := fun w hw => hk2 w ((hp.two w).mp hw).2
  have m3 : ∀ w ∈ f.l3, w ∈ k1.keys := fun w hw => by obtain ⟨a, b, h, _⟩ := (hp.three w).mp hw; exact hk1 w ⟨a, h⟩
  have m4 : ∀ w ∈ f.l4, w ∈ k1.keys := fun w hw => by obtain ⟨a, b, h, _⟩ := (hp.four w).mp hw; exact hk1 w ⟨a, h⟩
  have few : ∀ {l k : List Text}, l.Nodup → (∀ w ∈ l, w ∈ k) → k.length < 10000 → l.length < 10000 := fun hn hs hk =>
    Nat.lt_of_le_of_lt (List.subperm_of_subset hn hs).length_le hk
  have kl1 : k1.keys.length < 10000 := by simpa [SMap.keys] using hl1
  have kl2 : k2.keys.length < 10000 := by simpa [SMap.keys] using hl2
  have f1 := few (nodup _ (by simp)) m1 kl1
  have f2 := few (nodup _ (by simp)) m2 kl2
  have f3 := few (nodup _ (by simp)) m3 kl1
  have f4 := few (nodup _ (by simp)) m4 kl1
  obtain ⟨v1, w1⟩ := hv one (by simp)
  obtain ⟨v2, w2⟩ := hv two (by simp)
  obtain ⟨v3, w3⟩ := hv three (by simp)
  obtain ⟨v4, w4⟩ := hv for_ (by simp)
  simp only [List.map_cons, List.map_nil, List.nodup_cons, List.mem_cons, List.not_mem_nil, or_false, not_or] at hd
  obtain ⟨⟨d12, d13, d14⟩, ⟨d23, d24⟩, d34, -, -⟩ := hd
  have read : ∀ {st' : Lists.Store} {name : Text} {l : List Text}, Single seps ('$' :: name) → (∀ w ∈ l, Single seps w ∧ Ordinary w) →
      SMap.find (toKey .lists name) st' = some (Lists.join l) → Args.init (LstCalc.world file st') ('$' :: name) = .ok (some l) := by
    intro st' name l hw hl hfind
    obtain ⟨r1, r2⟩ := LstCalc.join_read fun w hw => (hl w hw).1
    exact LstCalc.init_list (W := LstCalc.world file st') LstCalc.usual_seps hw hfind r1 r2 fun w hw => (hl w hw).2
  refine ⟨f, (((st.insert (toKey .lists one) (Lists.join f.l1)).insert (toKey .lists two) (Lists.join f.l2)).insert (toKey .lists three) (Lists.join f.l3)).insert
    (toKey .lists for_) (Lists.join f.l4), ?_, hp, read w1 (fun w hw => name_word (hn1 w (m1 w hw))) ?_, read w2 (fun w hw => name_word (hn2 w (m2 w hw))) ?_,
    read w3 (fun w hw => name_word (hn1 w (m3 w hw))) ?_, read w4 (fun w hw => name_word (hn1 w (m4 w hw))) ?_, ?_⟩
  · unfold dataCompare
    rw [if_neg (by simpa using h0), hf, Args.bind_ok, split_few v1 f1, Args.bind_ok, split_few v2 f2, Args.bind_ok, split_few v3 f3, Args.bind_ok, split_few v4 f4]
  · simp [SMap.find_insert, d12, d13, d14]
  · simp [SMap.find_insert, d23, d24]
  · simp [SMap.find_insert, d34]
  · simp [SMap.find_insert]
  · intro k hk
    simp only [List.map_cons, List.map_nil, List.mem_cons, List.not_mem_nil, or_false, not_or] at hk
    simp [SMap.find_insert, hk]

/-! ## Examples and what is not so -/

example : cmpVal (1 / 10 ^ 7) 1000 (1000 + 1 / 10 ^ 5) = true ∧ cmpVal (1 / 10 ^ 7) 1000 1001 = false ∧ cmpVal (1 / 10 ^ 7) 0 (1 / 10 ^ 8) = true := by
  decide +kernel

/-- A workspace and a file of variables in four periods. -/
def ws : SMap (List Rat) := [("A".toList, [1, 2, 3, 4]), ("B".toList, [5, 6, 7, 8]), ("C".toList, [0, 0, 0, 1])]
def fil : SMap (List Rat) := [("B".toList, [5, 6, 7, 8]), ("C".toList, [0, 0, 1, 1]), ("D".toList, [1, 1, 1, 1])]

def names4 : List Text := ["W".toList, "F".toList, "E".toList, "G".toList]

def after (o : Res Lists.Out) (names : List Text) : Option (Bool × List (Option Text)) :=
  match o with
  | .ok o => some (o.good, names.map fun n => SMap.find n o.store)
  | _ => none

example : SMap.Sorted ws ∧ SMap.Sorted fil ∧ (∀ w ∈ ws.keys, checkName .variables w = true) ∧ (∀ w ∈ fil.keys, checkName .variables w = true) ∧ fil ≠ [] ∧
    (∀ x ∈ names4, checkName .lists (toKey .lists x) = true ∧ Single seps ('$' :: x)) ∧ (names4.map (toKey .lists)).Nodup := by
  refine ⟨by simp [SMap.Sorted, ws, SMap.keys, nameLt], by simp [SMap.Sorted, fil, SMap.keys, nameLt], ?_⟩
  unfold Single
  decide +kernel

example : ∀ w a b, ws.find w = some a → fil.find w = some b → ∃ e, cmpVar (1 / 10 ^ 7) 4 a b = .ok e ∧ (e = true ↔ ∀ i < 4, ∃ x y, a[i]? = some x ∧ b[i]? = some y ∧
    Close (1 / 10 ^ 7) x y) := by
  intro w a b ha hb
  have hlen : ∀ {n : Nat} {a b : List Rat}, n ≤ a.length → n ≤ b.length → ∃ e, cmpVar (1 / 10 ^ 7) n a b = .ok e := by
    intro n
    induction n with
    | zero => intro a b _ _; exact ⟨true, rfl⟩
    | succ n ih =>
      intro a b h1 h2
      obtain ⟨x, a, rfl⟩ := List.exists_cons_of_length_pos (l := a) (by omega)
      obtain ⟨y, b, rfl⟩ := List.exists_cons_of_length_pos (l := b) (by omega)
      rw [cmpVar]
      split
      · exact ih (by simpa using h1) (by simpa using h2)
      · exact ⟨false, rfl⟩
  have all4 : ∀ {m : SMap (List Rat)} {w a}, (∀ p ∈ m, p.2.length = 4) → SMap.find w m = some a → a.length = 4 := by
    intro m w a h hf
    induction m with
    | nil => simp [SMap.find] at hf
    | cons p m ih =>
      obtain ⟨k, v⟩ := p
      rw [SMap.find] at hf
      split at hf
      · simp only [Option.some.injEq] at hf; rw [← hf]; exact h (k, v) (by simp)
      · exact ih (fun p hp => h p (by simp [hp])) hf
  have h1 := all4 (by simp [ws]) ha
  have h2 := all4 (by simp [fil]) hb
  obtain ⟨e, h⟩ := hlen (n := 4) (a := a) (b := b) (by omega) (by omega)
  refine ⟨e, h, ?_⟩
  rw [← C66_variable (by norm_num), h]
  cases e <;> simp

example : after (dataCompare (cmpVar (1 / 10 ^ 7) 4) ws fil [] "W".toList "F".toList "E".toList "G".toList) names4 =
    some (true, [some "A".toList, some "D".toList, some "B".toList, some "C".toList]) := by decide +kernel

/-- The comparison is not symmetric. -/
theorem C66_symmetric_counterexample : cmpVal (1 / 10 ^ 7) 1 (1 + 1 / 10 ^ 7) = false ∧ cmpVal (1 / 10 ^ 7) (1 + 1 / 10 ^ 7) 1 = true := by decide +kernel

/-- Variables are compared by position, not by period: a file whose sample has fewer periods than the workspace is read behind its end, and one that begins in
another period with the same values is equal. -/
theorem C66_sample_counterexample : cmpVar (1 / 10 ^ 7) 4 [1, 2, 3, 4] [1, 2] = .ub ∧ cmpVar (1 / 10 ^ 7) 2 [1, 2] [1, 2, 3] = .ok true := by decide +kernel

/-- With an empty file no list is built. -/
theorem C66_empty_counterexample : after (dataCompare (cmpVar (1 / 10 ^ 7) 4) ws [] [] "W".toList "F".toList "E".toList "G".toList) names4 =
    some (false, [none, none, none, none]) := by decide +kernel

/-- A list that cannot be stored is not an error, unless it is the last one. -/
theorem C66_names_counterexample : after (dataCompare (cmpVar (1 / 10 ^ 7) 4) ws fil [] "1".toList "2".toList "3".toList "G".toList) names4 =
    some (true, [none, none, none, some "C".toList]) := by decide +kernel

/-- Two equations that differ by their comment and their tests are equal; one that cannot be compiled differs from itself. -/
theorem C66_equation_counterexample : ∃ a b : Obj.Eqn, a.comment ≠ b.comment ∧ a.tests ≠ b.tests ∧ eqEqn (fun _ => true) a b = true ∧ eqEqn (fun _ => false) a a = false :=
  ⟨⟨[], 0, 0, Obj.noSample, [1], [], [], 0, []⟩, ⟨[], 0, 0, Obj.noSample, [2], [], [], 0, [1]⟩, by decide, by decide, by decide, by decide⟩

def line : Tbl.Line := ⟨Tbl.tCell, 0, false, []⟩

/-- A table. -/
def table (gx gy : Int) : Tbl.Table := ⟨0, 0, 2, line, [], 0, 0, 0, 0, 0, 0, 0, gx, gy, 0, 0⟩

example : ∀ l ∈ (table 1 1).divider :: (table 1 1).lines, Regular l := by
  intro l hl
  have : l = line := by simpa [table] using hl
  rw [this]
  unfold Regular
  decide

/-- A table with different grids differs from itself, and is equal to another one. -/
theorem C66_table_counterexample : eqTbl (table 0 1) (table 0 1) = .ok false ∧ eqTbl (table 1 1) (table 0 1) = .ok true := by decide +kernel

/-- Of the titles only the first cell is compared; a title without cells is undefined. -/
theorem C66_title_counterexample : eqLine ⟨Tbl.tTitle, 0, false, []⟩ ⟨Tbl.tTitle, 0, false, []⟩ = .ub := by decide +kernel

end Iode.Compare
