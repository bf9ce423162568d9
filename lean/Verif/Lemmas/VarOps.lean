import Verif.Model.VarOps
import Verif.Props.C14

/-!
# Lemmas about the operations on ranges of variables
-/
namespace Iode.VarOps

open VWorld World

variable {α : Type}

/-- `x` with `f` applied on `m` positions from `t` on. -/
def rangeWith (t m : Nat) (f : Nat → α → α) (x : List α) : List α := x.mapIdx fun j y => if t ≤ j ∧ j < t + m then f (j - t) y else y

@[simp] theorem rangeWith_length (t m : Nat) (f : Nat → α → α) (x : List α) : (rangeWith t m f x).length = x.length := by simp [rangeWith]

theorem rangeWith_zero (t : Nat) (f : Nat → α → α) (x : List α) : rangeWith t 0 f x = x := by
  unfold rangeWith
  apply List.ext_getElem? fun j => ?_
  rw [List.getElem?_mapIdx]
  cases x[j]? with
  | none => rfl
  | some y => simp

theorem rangeWith_step (t m : Nat) (f : Nat → α → α) {x : List α} {y : α} (hy : x[t]? = some y) :
    rangeWith (t + 1) m (fun q => f (q + 1)) (x.set t (f 0 y)) = rangeWith t (m + 1) f x := by
  unfold rangeWith
  apply List.ext_getElem? fun j => ?_
  rw [List.getElem?_mapIdx, List.getElem?_mapIdx, List.getElem?_set]
  by_cases hj : t = j
  · subst hj
    obtain ⟨hl, -⟩ := List.getElem?_eq_some_iff.mp hy
    rw [if_pos rfl, if_pos hl, hy]
    simp
  · rw [if_neg hj]
    cases x[j]? with
    | none => rfl
    | some z =>
      simp only [Option.map_some]
      by_cases hc : t + 1 ≤ j ∧ j < t + 1 + m
      · rw [if_pos hc, if_pos (by omega), show j - (t + 1) + 1 = j - t by omega]
      · rw [if_neg hc, if_neg (by omega)]

theorem write_write (w : World (List α)) (a : Nat) (x y : List α) : (w.writeCore a x).writeCore a y = w.writeCore a y := by
  unfold writeCore
  simp only [World.mk.injEq, true_and, and_true]
  funext b
  by_cases h : b = a <;> simp [h]

theorem write_self (w : World (List α)) (a : Nat) : w.writeCore a (w.heap a) = w := by
  unfold writeCore
  cases w
  simp only [World.mk.injEq, true_and, and_true]
  funext b
  by_cases h : b = a <;> simp [h]

/-- No value is written before it is read. -/
def Free (src : Src α) (a t k m : Nat) : Prop :=
  match src with
  | .mem b s => b = a → ∀ p q, p < q → q < m → s + k + q ≠ t + p
  | _ => True

theorem pairLoop_add (stop : α → Bool) (g : α → α → α) (a : Nat) (src : Src α) (r : Nat) : ∀ (m t k : Nat) (w : World (List α)) (ys : Nat → α),
    (∀ q, q < m → src.read w (k + q) = some (ys q)) → (∀ q, q < m → stop (ys q) = false) → Free src a t k m → t + m ≤ (w.heap a).length →
    pairLoop stop g a src (m + r) t k w = pairLoop stop g a src r (t + m) (k + m) (w.writeCore a (rangeWith t m (fun q x => g x (ys q)) (w.heap a)))
  | 0, t, k, w, ys, _, _, _, _ => by rw [rangeWith_zero, write_self]; simp
  | m + 1, t, k, w, ys, hr, hs, hf, hl => by
    have hx : (w.heap a)[t]? = some ((w.heap a)[t]'(by omega)) := List.getElem?_eq_getElem (by omega)
    have h0 : src.read w k = some (ys 0) := hr 0 (by omega)
    rw [show m + 1 + r = (m + r) + 1 by omega]
    simp only [pairLoop, h0]
    rw [if_neg (by simp [hs 0 (by omega)]), hx]
    simp only []
    have ha : ∀ l, (w.writeCore a l).heap a = l := fun l => by simp [writeCore]
    rw [pairLoop_add stop g a src r m (t + 1) (k + 1) _ (fun q => ys (q + 1)) ?_ ?_ ?_ ?_, ha, write_write,
      rangeWith_step t m (fun q x => g x (ys q)) hx, show t + 1 + m = t + (m + 1) by omega, show k + 1 + m = k + (m + 1) by omega]
    · intro q hq
      have h1 := hr (q + 1) (by omega)
      rw [← h1, show k + 1 + q = k + (q + 1) by omega]
      cases src with
      | const y => rfl
      | buf l => rfl
      | mem b s =>
        simp only [Src.read]
        by_cases hb : b = a
        · subst hb
          rw [ha, List.getElem?_set, if_neg]
          have := hf rfl 0 (q + 1) (by omega) (by omega)
          omega
        · simp [writeCore, hb]
    · intro q hq; exact hs _ (by omega)
    · cases src with
      | const y => trivial
      | buf l => trivial
      | mem b s =>
        intro hb p q h1 h2
        have := hf hb (p + 1) (q + 1) (by omega) (by omega)
        omega
    · rw [ha, List.length_set]; omega

/-! ## What is seen when objects change in place -/

theorem find_family {v : VWorld α} (h : Inv v) {i j : Nat} {k : Name} {a b : Nat} (hr : v.w.rootOf j = v.w.rootOf i)
    (ha : (v.w.dbs i).objs.find k = some a) (hb : (v.w.dbs j).objs.find k = some b) : b = a := by
  have top : ∀ y c, (v.w.dbs y).objs.find k = some c → (v.w.dbs (v.w.rootOf y)).objs.find k = some c := by
    intro y c hc
    by_cases hk : (v.w.dbs y).kind = .subset
    · exact h.base.coh _ _ _ _ (h.base.reg y hk) hc
    · rw [rootOf_of_ne hk]; exact hc
  have h1 := top i a ha
  have h2 := top j b hb
  rw [hr, h1] at h2
  simpa using h2.symm

theorem linked_family {v : VWorld α} (h : Inv v) {i j : Nat} (hr : v.w.rootOf j = v.w.rootOf i) : Linked v.w j i := by
  have linkTop : ∀ y, y = v.w.rootOf y ∨ y ∈ (v.w.dbs (v.w.rootOf y)).children := by
    intro y
    by_cases hk : (v.w.dbs y).kind = .subset
    · exact Or.inr (h.base.reg y hk)
    · exact Or.inl (rootOf_of_ne hk).symm
  exact Or.inr ⟨v.w.rootOf i, by rw [← hr]; exact linkTop j, linkTop i⟩

/-- The state with other values of the objects. -/
def withHeap (v : VWorld α) (h : Nat → List α) : VWorld α := { v with w := { v.w with heap := h } }

theorem inv_heap {v : VWorld α} (h : Inv v) {h' : Nat → List α} (hl : ∀ a, (h' a).length = (v.w.heap a).length) : Inv (withHeap v h') :=
  ⟨h.base.heap h', fun i k a hf => by show ((h' a).length : Int) = _; rw [hl]; exact h.len i k a hf, h.same, h.fair⟩

theorem look_val {v : VWorld α} (h : Inv v) (j : Nat) (name : Name) : v.look j name = v.w.val j (toKey .variables name) :=
  look_eq (by decide) h.base.good.keys j name

/-- The names of database `i` changed by `f`: all databases of the family show it, and nothing else changes. -/
theorem look_heap {v : VWorld α} (h : Inv v) {i : Nat} {h' : Nat → List α} (f : Name → List α → List α) (hl : ∀ a, (h' a).length = (v.w.heap a).length)
    (h1 : ∀ k a, (v.w.dbs i).objs.find k = some a → h' a = f k (v.w.heap a)) (h2 : ∀ a, (∀ k, (v.w.dbs i).objs.find k ≠ some a) → h' a = v.w.heap a) (j : Nat) (name : Name) :
    (withHeap v h').look j name = if v.w.rootOf j = v.w.rootOf i ∧ v.look i name ≠ none then (v.look j name).map (f (toKey .variables name)) else v.look j name := by
  rw [look_val (inv_heap h hl), look_val h, look_val h]
  generalize toKey .variables name = k
  show ((v.w.dbs j).objs.find k).map h' = _
  unfold World.val
  cases hj : (v.w.dbs j).objs.find k with
  | none => simp
  | some b =>
    cases hi : (v.w.dbs i).objs.find k with
    | none =>
      rw [if_neg (by simp)]
      simp only [Option.map_some]
      rw [h2]
      intro l hl
      have hr := h.base.good.wf.sep j i k l b hj hl
      have := h.base.good.unshared j i k l b (linked_family h hr) hj hl
      subst this
      rw [hi] at hl
      simp at hl
    | some a =>
      by_cases hr : v.w.rootOf j = v.w.rootOf i
      · rw [if_pos ⟨hr, by simp⟩]
        have := find_family h hr hi hj
        subst this
        simp [h1 k b hi]
      · rw [if_neg (by simp [hr])]
        simp only [Option.map_some]
        rw [h2]
        intro l hl
        exact hr (h.base.good.wf.sep j i k l b hj hl)

/-! ## Loops over all variables -/

theorem nodup_objs {v : VWorld α} (h : Inv v) (i : Nat) : ((v.w.dbs i).objs.map (·.2)).Nodup :=
  SMap.nodup_values (h.base.sorted i) fun k l a h1 h2 => h.base.good.unshared i i k l a (.inl rfl) h1 h2

theorem write_heap (w : World (List α)) (a : Nat) (x : List α) : w.writeCore a x = { w with heap := fun b => if b = a then x else w.heap b } := rfl

theorem allLoop_spec (g : α → α → α) (value : α) (first n : Nat) : ∀ (as : List (Name × Nat)) (w : World (List α)), (as.map (·.2)).Nodup →
    (∀ e ∈ as, first + n ≤ (w.heap e.2).length) →
    allLoop g value first n as w =
      ({ w with heap := fun b => if b ∈ as.map (·.2) then rangeWith first n (fun _ x => g x value) (w.heap b) else w.heap b }, .ok true)
  | [], w, _, _ => by simp [allLoop]
  | (k, a) :: as, w, hd, hl => by
    simp only [List.map_cons, List.nodup_cons] at hd
    have h1 := pairLoop_add (fun _ => false) g a (.const value) 0 n first 0 w (fun _ => value) (fun _ _ => rfl) (fun _ _ => rfl) trivial (hl (k, a) (by simp))
    rw [Nat.add_zero] at h1
    simp only [pairLoop] at h1
    rw [allLoop, h1]
    simp only []
    have hne : ∀ e ∈ as, e.2 ≠ a := fun e he heq => hd.1 (List.mem_map.mpr ⟨e, he, heq⟩)
    rw [allLoop_spec g value first n as _ hd.2 fun e he => by
      have := hl e (by simp [he])
      simpa [writeCore, hne e he] using this]
    refine Prod.ext ?_ rfl
    simp only [write_heap, World.mk.injEq, true_and, and_true]
    funext b
    by_cases hb : b = a
    · subst hb
      rw [if_neg hd.1]
      simp
    · simp only [List.map_cons, List.mem_cons, hb, false_or, if_false]

theorem periodLoop_add (ar : Arith α) (o : BinOp) (t : Nat) (as2 : List (Name × Nat)) (ys2 : List α) : ∀ (as : List (Name × Nat)) (ys : List α) (w : World (List α)),
    as.length = ys.length → (as.map (·.2)).Nodup → (∀ e ∈ as, t < (w.heap e.2).length) → (o = .div → ∀ y ∈ ys, ar.isZero y = false) →
    ∃ h', periodLoop ar o t (as ++ as2) (ys ++ ys2) w = periodLoop ar o t as2 ys2 { w with heap := h' } ∧
      (∀ (q : Nat) (k : Name) (a : Nat) (y : α), as[q]? = some (k, a) → ys[q]? = some y → h' a = rangeWith t 1 (fun _ x => ar.op o x y) (w.heap a)) ∧
      ∀ b, b ∉ as.map (·.2) → h' b = w.heap b
  | [], [], w, _, _, _, _ => ⟨w.heap, rfl, by simp, by simp⟩
  | [], _ :: _, _, h, _, _, _ => by simp at h
  | _ :: _, [], _, h, _, _, _ => by simp at h
  | (k, a) :: as, y :: ys, w, hlen, hd, hl, hz => by
    simp only [List.map_cons, List.nodup_cons] at hd
    have hne : ∀ e ∈ as, e.2 ≠ a := fun e he heq => hd.1 (List.mem_map.mpr ⟨e, he, heq⟩)
    have hla : t < (w.heap a).length := hl (k, a) (by simp)
    have hx : (w.heap a)[t]? = some (w.heap a)[t] := List.getElem?_eq_getElem hla
    obtain ⟨h', e1, e2, e3⟩ := periodLoop_add ar o t as2 ys2 as ys (w.writeCore a ((w.heap a).set t (ar.op o (w.heap a)[t] y))) (by simpa using hlen) hd.2
      (fun e he => by simpa [writeCore, hne e he] using hl e (by simp [he])) (fun ho z hz' => hz ho z (by simp [hz']))
    have hset : (w.heap a).set t (ar.op o (w.heap a)[t] y) = rangeWith t 1 (fun _ x => ar.op o x y) (w.heap a) := by
      have := rangeWith_step t 0 (fun _ x => ar.op o x y) hx
      rwa [rangeWith_zero] at this
    refine ⟨h', ?_, ?_, ?_⟩
    · simp only [List.cons_append, periodLoop]
      rw [if_neg (by rintro ⟨ho, h⟩; rw [hz ho y (by simp)] at h; simp at h), hx]
      exact e1
    · intro q k' a' y' h1 h2
      cases q with
      | zero =>
        simp only [List.getElem?_cons_zero, Option.some.injEq, Prod.mk.injEq] at h1 h2
        obtain ⟨rfl, rfl⟩ := h1
        subst h2
        rw [e3 _ hd.1]
        simp [writeCore, hset]
      | succ q =>
        simp only [List.getElem?_cons_succ] at h1 h2
        rw [e2 q k' a' y' h1 h2]
        have := hne _ (List.mem_of_getElem? h1)
        simp only at this
        simp [writeCore, this]
    · intro b hb
      simp only [List.map_cons, List.mem_cons, not_or] at hb
      rw [e3 b hb.2]
      simp [writeCore, hb.1]

theorem readLoop_spec (x : List α) : ∀ (n s : Nat), s + n ≤ x.length → readLoop x n s = .ok ((x.drop s).take n)
  | 0, s, _ => by simp [readLoop]
  | n + 1, s, h => by
    have hx : x[s]? = some (x[s]'(by omega)) := List.getElem?_eq_getElem (by omega)
    rw [readLoop, hx]
    simp only []
    rw [readLoop_spec x n (s + 1) (by omega)]
    simp only [Res.bind]
    rw [List.drop_eq_getElem_cons (by omega : s < x.length), List.take_succ_cons]

end Iode.VarOps
