import Verif.Lemmas.VarOps
import Verif.Props.C11
import Mathlib.Data.Rat.Defs
import Mathlib.Tactic.NormNum
import Mathlib.Tactic.Linarith
import Mathlib.Algebra.Order.Ring.Rat

/-!
# C75: operations on ranges of variables

What a user sees: `v.look j name` are the values of variable `name` in database `j`.  Two databases of one family show the same variables (a database and its subsets).
-/
namespace Iode.VarOps

open VWorld World

variable {α : Type}

/-- The values `x` with `f` applied from position `first` to position `last`; `f` gets the number of the position in the range. -/
def Changed (first last : Int) (f : Nat → α → α) (x : List α) : List α := x.mapIdx fun t y => if first ≤ t ∧ t ≤ last then f (t - first).toNat y else y

/-- The databases show the same variables. -/
def Family (v : VWorld α) (i j : Nat) : Prop := v.w.rootOf j = v.w.rootOf i

/-- In `v'` the variables of database `i` are changed by `f`, in all databases of the family, and everything else is as in `v`. -/
def Shows (v v' : VWorld α) (i : Nat) (f : Name → List α → List α) : Prop :=
  v'.smp = v.smp ∧ ∀ j name, (Family v i j ∧ v.look i name ≠ none → v'.look j name = (v.look j name).map (f name)) ∧
    (¬ (Family v i j ∧ v.look i name ≠ none) → v'.look j name = v.look j name)

/-- The same name, whatever the letters. -/
def Same (n m : Name) : Prop := toKey .variables n = toKey .variables m

theorem range_changed {first last : Int} (h0 : 0 ≤ first) (hl : first ≤ last) (f : Nat → α → α) (x : List α) :
    rangeWith first.toNat (last - first + 1).toNat f x = Changed first last f x := by
  unfold rangeWith Changed
  apply List.ext_getElem? fun j => ?_
  rw [List.getElem?_mapIdx, List.getElem?_mapIdx]
  cases x[j]? with
  | none => rfl
  | some y =>
    simp only [Option.map_some]
    by_cases hc : first ≤ j ∧ j ≤ last
    · rw [if_pos hc, if_pos (by omega), show j - first.toNat = ((j : Int) - first).toNat by omega]
    · rw [if_neg hc, if_neg (by omega)]

theorem shows_heap {v : VWorld α} (h : Inv v) {i : Nat} {h' : Nat → List α} (f : Name → List α → List α) (hf : ∀ n m, Same n m → f n = f m) (hl : ∀ a, (h' a).length = (v.w.heap a).length)
    (h1 : ∀ k a, (v.w.dbs i).objs.find k = some a → h' a = f k (v.w.heap a)) (h2 : ∀ a, (∀ k, (v.w.dbs i).objs.find k ≠ some a) → h' a = v.w.heap a) :
    Inv (withHeap v h') ∧ Shows v (withHeap v h') i f := by
  refine ⟨inv_heap h hl, rfl, fun j name => ⟨fun hc => ?_, fun hc => ?_⟩⟩
  · rw [look_heap h f hl h1 h2, if_pos (show v.w.rootOf j = v.w.rootOf i ∧ _ from hc), hf name (toKey .variables name) (by unfold Same; rw [toKey_idem])]
  · rw [look_heap h f hl h1 h2, if_neg (show ¬ (v.w.rootOf j = v.w.rootOf i ∧ _) from hc)]

theorem nb_eq_length {v : VWorld α} (h : Inv v) {i : Nat} {k : Name} {a : Nat} (hf : (v.w.dbs i).objs.find k = some a) : ((v.w.heap a).length : Int) = v.nb i := h.len i k a hf

/-! ## A number -/

/-- `vars op= number` changes the values of the range in all variables of the database and nothing else. -/
theorem C75_scalar {v : VWorld α} (h : Inv v) (ar : Arith α) (o : BinOp) (i : Nat) {first last : Int} (h0 : 0 ≤ first) (h1 : first ≤ last) (h2 : last < v.nb i) (value : α)
    (hz : o = .div → ar.isZero value = false) :
    ∃ v', opScalar ar o v i first last value = (v', .ok true) ∧ Inv v' ∧ Shows v v' i fun _ => Changed first last fun _ x => ar.op o x value := by
  have hlen : ∀ e ∈ (v.w.dbs i).objs, first.toNat + (last - first + 1).toNat ≤ (v.w.heap e.2).length := by
    intro e he
    have := nb_eq_length h (SMap.find_of_mem (h.base.sorted i) (k := e.1) (v := e.2) he)
    omega
  have hs := allLoop_spec (ar.op o) value first.toNat (last - first + 1).toNat (v.w.dbs i).objs v.w (nodup_objs h i) hlen
  have hw : opScalar ar o v i first last value = (withHeap v (fun b => if b ∈ (v.w.dbs i).objs.map (·.2) then
      rangeWith first.toNat (last - first + 1).toNat (fun _ x => ar.op o x value) (v.w.heap b) else v.w.heap b), .ok true) := by
    unfold opScalar
    rw [if_neg (by omega), if_neg (by omega), if_neg (by omega), if_neg (by omega), if_neg (by rintro ⟨ho, hv⟩; rw [hz ho] at hv; simp at hv), hs]
    rfl
  refine ⟨_, hw, shows_heap h _ (fun _ _ _ => rfl) (fun a => ?_) (fun k a hf => ?_) (fun a hf => ?_)⟩
  · split <;> simp
  · rw [if_pos (List.mem_map.mpr ⟨_, SMap.mem_of_find hf, rfl⟩), range_changed h0 h1]
  · rw [if_neg]
    intro hm
    obtain ⟨e, he, rfl⟩ := List.mem_map.mp hm
    exact hf e.1 (SMap.find_of_mem (h.base.sorted i) he)

/-- Ranges outside the sample and division by zero are refused; nothing changes. -/
theorem C75_scalar_refused (v : VWorld α) (ar : Arith α) (o : BinOp) (i : Nat) (first last : Int) (value : α)
    (h : first < 0 ∨ last < first ∨ v.nb i ≤ last ∨ o = .div ∧ ar.isZero value = true) : opScalar ar o v i first last value = (v, .err) := by
  unfold opScalar
  split_ifs with g1 g2 g3 g4 g5
  all_goals first | rfl | skip
  rcases h with h | h | h | h
  · omega
  · omega
  · omega
  · exact absurd h g5

/-! ## One period -/

/-- The name is the `q`-th one of the database. -/
def Nth (v : VWorld α) (i q : Nat) (name : Name) : Prop := (v.w.dbs i).objs.keys[q]? = some (toKey .variables name)

theorem nodup_keys {m : SMap Nat} (h : SMap.Sorted m) : m.keys.Nodup := by
  induction m with
  | nil => simp [SMap.keys]
  | cons e l ih =>
    obtain ⟨k, x⟩ := e
    obtain ⟨h1, h2⟩ := h
    show (k :: SMap.keys l).Nodup
    rw [List.nodup_cons]
    refine ⟨fun hm => ?_, ih h2⟩
    have := h1 k hm
    rw [SMap.nameLt_irrefl] at this
    simp at this

theorem shows_period {v : VWorld α} (h : Inv v) {i : Nat} {t : Int} (h0 : 0 ≤ t) (h1 : t < v.nb i) (g : α → α → α) (ys : List α) (n : Nat) {h' : Nat → List α}
    (hn : n ≤ (v.w.dbs i).objs.length) (hy : n ≤ ys.length)
    (e2 : ∀ (q : Nat) (k : Name) (a : Nat) (y : α), ((v.w.dbs i).objs.take n)[q]? = some (k, a) → (ys.take n)[q]? = some y → h' a = rangeWith t.toNat 1 (fun _ x => g x y) (v.w.heap a))
    (e3 : ∀ b, b ∉ ((v.w.dbs i).objs.take n).map (·.2) → h' b = v.w.heap b) :
    ∃ f : Name → List α → List α, Inv (withHeap v h') ∧ Shows v (withHeap v h') i f ∧
      ∀ q name, Nth v i q name → (∀ y, q < n → ys[q]? = some y → f name = Changed t t fun _ x => g x y) ∧ (n ≤ q → f name = id) := by
  set objs := (v.w.dbs i).objs with ho
  have hsort : SMap.Sorted objs := h.base.sorted i
  have hnd : objs.keys.Nodup := nodup_keys hsort
  have idx : ∀ (q : Nat) k, objs.keys[q]? = some k → objs.keys.idxOf k = q := by
    intro q k hq
    obtain ⟨hl, e⟩ := List.getElem?_eq_some_iff.mp hq
    rw [← e]
    exact hnd.idxOf_getElem q hl
  let f : Name → List α → List α := fun name =>
    if objs.keys.idxOf (toKey .variables name) < n then
      match ys[objs.keys.idxOf (toKey .variables name)]? with
      | some y => Changed t t fun _ x => g x y
      | none => id
    else id
  have entry : ∀ k a, objs.find k = some a → ∃ q, q < objs.length ∧ objs[q]? = some (k, a) ∧ objs.keys.idxOf k = q ∧ toKey .variables k = k := by
    intro k a hf
    obtain ⟨q, hq, e⟩ := List.getElem_of_mem (SMap.mem_of_find hf)
    have hq' : objs[q]? = some (k, a) := by rw [List.getElem?_eq_getElem hq, e]
    refine ⟨q, hq, hq', idx q k (by simp [SMap.keys, hq']), ?_⟩
    exact toKey_of_checkName (h.base.good.keys i k ((SMap.mem_keys_iff _ _).mpr ⟨a, hf⟩))
  have hone : ∀ y x, rangeWith t.toNat 1 (fun _ x => g x y) x = Changed t t (fun _ x => g x y) x := by
    intro y x
    have := range_changed h0 (Int.le_refl t) (fun _ x => g x y) x
    rwa [show (t - t + 1).toNat = 1 by omega] at this
  have key : ∀ k a, objs.find k = some a → h' a = f k (v.w.heap a) := by
    intro k a hf
    obtain ⟨q, hq, hqa, hidx, hkk⟩ := entry k a hf
    simp only [f, hkk, hidx]
    by_cases hqn : q < n
    · rw [if_pos hqn, List.getElem?_eq_getElem (by omega : q < ys.length)]
      simp only []
      rw [← hone]
      exact e2 q k a _ (by rw [List.getElem?_take, if_pos hqn, hqa]) (by rw [List.getElem?_take, if_pos hqn, List.getElem?_eq_getElem])
    · rw [if_neg hqn, e3 a, id]
      intro hm
      obtain ⟨⟨k', a'⟩, he, rfl⟩ := List.mem_map.mp hm
      have hf' := SMap.find_of_mem hsort (List.mem_of_mem_take he)
      have := h.base.good.unshared i i k k' a' (.inl rfl) hf hf'
      subst this
      obtain ⟨p, hp, hpe⟩ := List.getElem_of_mem he
      rw [List.length_take] at hp
      have := idx p k (by
        rw [List.getElem_take] at hpe
        simp [SMap.keys, List.getElem?_eq_getElem (by omega : p < objs.length), hpe])
      omega
  refine ⟨f, ?_⟩
  have hlen : ∀ a, (h' a).length = (v.w.heap a).length := by
    intro a
    by_cases ha : ∃ k, objs.find k = some a
    · obtain ⟨k, hf⟩ := ha
      rw [key k a hf]
      simp only [f]
      split
      · cases ys[objs.keys.idxOf (toKey .variables k)]? <;> simp [Changed]
      · rfl
    · rw [e3]
      intro hm
      obtain ⟨⟨k', a'⟩, he, rfl⟩ := List.mem_map.mp hm
      exact ha ⟨k', SMap.find_of_mem hsort (List.mem_of_mem_take he)⟩
  obtain ⟨s1, s2⟩ := shows_heap h (i := i) f (fun n m (e : toKey .variables n = toKey .variables m) => by simp only [f, e]) (h' := h') hlen key (fun a ha => e3 a fun hm => by
    obtain ⟨⟨k', a'⟩, he, rfl⟩ := List.mem_map.mp hm
    exact ha k' (SMap.find_of_mem hsort (List.mem_of_mem_take he)))
  refine ⟨s1, s2, fun q name hq => ?_⟩
  have hi := idx q _ hq
  simp only [f, hi]
  exact ⟨fun y hqn hy => by rw [if_pos hqn, hy], fun hqn => by rw [if_neg (by omega)]⟩

/-- `vars[period] op= values` changes the value of the period in each variable with its value, in the order of the names, and nothing else. -/
theorem C75_period {v : VWorld α} (h : Inv v) (ar : Arith α) (o : BinOp) (i : Nat) {t : Int} (h0 : 0 ≤ t) (h1 : t < v.nb i) {values : List α}
    (hn : values.length = (v.w.dbs i).objs.length) (hz : o = .div → ∀ y ∈ values, ar.isZero y = false) :
    ∃ v' f, opPeriod ar o v i t values = (v', .ok true) ∧ Inv v' ∧ Shows v v' i f ∧
      ∀ (q : Nat) name y, Nth v i q name → values[q]? = some y → f name = Changed t t fun _ x => ar.op o x y := by
  obtain ⟨h', e1, e2, e3⟩ := periodLoop_add ar o t.toNat [] [] (v.w.dbs i).objs values v.w hn.symm (nodup_objs h i) (fun e he => by
    have := nb_eq_length h (SMap.find_of_mem (h.base.sorted i) (k := e.1) (v := e.2) he)
    omega) hz
  obtain ⟨f, f1, f2, f3⟩ := shows_period h h0 h1 (ar.op o) values values.length (h' := h') (by omega) (by omega)
    (by rw [List.take_of_length_le (by omega), List.take_of_length_le (by omega)]; exact e2) (by rw [List.take_of_length_le (by omega)]; exact e3)
  refine ⟨withHeap v h', f, ?_, f1, f2, fun q name y hq hy => (f3 q name hq).1 y (List.getElem?_eq_some_iff.mp hy).1 hy⟩
  unfold opPeriod
  rw [if_neg (by omega), if_neg (by omega), if_neg (by omega)]
  rw [List.append_nil, List.append_nil] at e1
  rw [e1]
  rfl

/-- Division by values with a zero among them fails at the zero: the variables in front of it are divided, the others are not. -/
theorem C75_period_zero {v : VWorld α} (h : Inv v) (ar : Arith α) (i : Nat) {t : Int} (h0 : 0 ≤ t) (h1 : t < v.nb i) {before behind : List α} {z : α}
    (hn : (before ++ z :: behind).length = (v.w.dbs i).objs.length) (hz : ar.isZero z = true) (hb : ∀ y ∈ before, ar.isZero y = false) :
    ∃ v' f, opPeriod ar .div v i t (before ++ z :: behind) = (v', .err) ∧ Inv v' ∧ Shows v v' i f ∧
      ∀ (q : Nat) name, Nth v i q name → (∀ y, before[q]? = some y → f name = Changed t t fun _ x => ar.op .div x y) ∧ (before.length ≤ q → f name = id) := by
  rw [List.length_append, List.length_cons] at hn
  have hlb : ((v.w.dbs i).objs.take before.length).length = before.length := by rw [List.length_take]; omega
  obtain ⟨h', e1, e2, e3⟩ := periodLoop_add ar .div t.toNat ((v.w.dbs i).objs.drop before.length) (z :: behind) ((v.w.dbs i).objs.take before.length) before v.w hlb
    (((List.take_sublist _ _).map _).nodup (nodup_objs h i)) (fun e he => by
      have := nb_eq_length h (SMap.find_of_mem (h.base.sorted i) (k := e.1) (v := e.2) (List.mem_of_mem_take he))
      omega) (fun _ => hb)
  obtain ⟨f, f1, f2, f3⟩ := shows_period h h0 h1 (ar.op .div) (before ++ z :: behind) before.length (h' := h') (by omega) (by simp)
    (by rw [List.take_left]; exact e2) e3
  refine ⟨withHeap v h', f, ?_, f1, f2, fun q name hq => ⟨fun y hy => ?_, (f3 q name hq).2⟩⟩
  · unfold opPeriod
    rw [if_neg (by omega), if_neg (by omega), if_neg (by rw [List.length_append, List.length_cons]; omega)]
    rw [List.take_append_drop] at e1
    rw [e1]
    obtain ⟨e, rest, he⟩ : ∃ e rest, (v.w.dbs i).objs.drop before.length = e :: rest := by
      cases hd : (v.w.dbs i).objs.drop before.length with
      | nil => have := congrArg List.length hd; rw [List.length_drop] at this; simp at this; omega
      | cons e rest => exact ⟨e, rest, rfl⟩
    rw [he, periodLoop, if_pos ⟨rfl, hz⟩]
    rfl
  · have hq' := (List.getElem?_eq_some_iff.mp hy).1
    exact (f3 q name hq).1 y hq' (by rw [List.getElem?_append_left hq', hy])

/-- A period outside the sample and a wrong number of values are refused; nothing changes. -/
theorem C75_period_refused (v : VWorld α) (ar : Arith α) (o : BinOp) (i : Nat) (t : Int) (values : List α)
    (h : t < 0 ∨ v.nb i ≤ t ∨ values.length ≠ (v.w.dbs i).objs.length) : opPeriod ar o v i t values = (v, .err) := by
  unfold opPeriod
  split_ifs with g1 g2 g3
  all_goals first | rfl | skip
  rcases h with h | h | h
  · omega
  · omega
  · exact absurd h (by simpa using g3)

/-! ## One variable -/

theorem shows_one {v : VWorld α} (h : Inv v) {i : Nat} {name : Name} {a : Nat} (hp : (v.w.dbs i).getObjPtr ty name = some a) (g : List α → List α) (hg : (g (v.w.heap a)).length = (v.w.heap a).length) :
    Inv ({ v with w := v.w.writeCore a (g (v.w.heap a)) } : VWorld α) ∧
    ∀ f : Name → List α → List α, (∀ m, Same m name → f m = g) → (∀ m, ¬ Same m name → f m = id) → Shows v { v with w := v.w.writeCore a (g (v.w.heap a)) } i f := by
  rw [getObjPtr_of_ne (by decide)] at hp
  have hk : (v.w.dbs i).objs.find (toKey ty name) = some a := by
    split at hp
    · simp at hp
    · exact hp
  have hlen : ∀ b, (if b = a then g (v.w.heap a) else v.w.heap b).length = (v.w.heap b).length := by
    intro b
    split
    · rename_i e; rw [e, hg]
    · rfl
  refine ⟨inv_heap h (h' := fun b => if b = a then g (v.w.heap a) else v.w.heap b) hlen, fun f f1 f2 => ?_⟩
  refine (shows_heap h (h' := fun b => if b = a then g (v.w.heap a) else v.w.heap b) f (fun n m e => ?_) hlen (fun k b hf => ?_) (fun b hb => ?_)).2
  · by_cases hs : Same n name
    · rw [f1 n hs, f1 m (e.symm.trans hs)]
    · rw [f2 n hs, f2 m (fun he => hs (e.trans he))]
  · have hkk : toKey .variables k = k := toKey_of_checkName (h.base.good.keys i k ((SMap.mem_keys_iff _ _).mpr ⟨b, hf⟩))
    by_cases hb : b = a
    · subst hb
      have := h.base.good.unshared i i k _ b (.inl rfl) hf hk
      rw [f1 k (by unfold Same; rw [hkk]; exact this)]
      simp
    · rw [f2 k, if_neg hb, id]
      intro hs
      have he : k = toKey ty name := by unfold Same at hs; rw [hkk] at hs; exact hs
      rw [he, hk] at hf
      exact hb (by simpa using hf.symm)
  · rw [if_neg]
    rintro rfl
    exact hb _ hk

/-- In `v'` the values of one variable are `y`, in all databases of the family, and everything else is as in `v`. -/
def ShowsOne (v v' : VWorld α) (i : Nat) (name : Name) (f : List α → List α) : Prop :=
  v'.smp = v.smp ∧ ∀ j m, (Family v i j ∧ Same m name → v'.look j m = (v.look j m).map f) ∧ (¬ (Family v i j ∧ Same m name) → v'.look j m = v.look j m)

theorem look_ptr {v : VWorld α} (h : Inv v) {i : Nat} {name : Name} {x : List α} (hx : v.look i name = some x) :
    name ≠ [] ∧ (v.w.dbs i).contains ty name = true ∧ (v.w.dbs i).objs.length ≠ 0 ∧
      ∃ a, (v.w.dbs i).getObjPtr ty name = some a ∧ (v.w.dbs i).objs.find (toKey ty name) = some a ∧ v.w.heap a = x := by
  rw [look_val h] at hx
  unfold World.val at hx
  obtain ⟨a, ha, e⟩ := Option.map_eq_some_iff.mp hx
  have hk := h.base.good.keys i _ ((SMap.mem_keys_iff _ _).mpr ⟨a, ha⟩)
  have hne : toKey .variables name ≠ [] := (checkName_chars hk).1
  refine ⟨?_, ?_, ?_, a, ?_, ha, e⟩
  · rintro rfl; exact hne (by decide)
  · rw [contains_of_ne (by decide), SMap.has_iff]; exact ⟨a, ha⟩
  · intro h0
    rw [List.length_eq_zero_iff] at h0
    rw [h0] at ha
    simp [SMap.find] at ha
  · rw [getObjPtr_of_ne (by decide), if_neg hne]; exact ha

theorem shows_one' {v : VWorld α} (h : Inv v) {i : Nat} {name : Name} {a : Nat} (hp : (v.w.dbs i).getObjPtr ty name = some a) (hf : (v.w.dbs i).objs.find (toKey ty name) = some a)
    (g : List α → List α) (hg : (g (v.w.heap a)).length = (v.w.heap a).length) :
    Inv ({ v with w := v.w.writeCore a (g (v.w.heap a)) } : VWorld α) ∧ ShowsOne v { v with w := v.w.writeCore a (g (v.w.heap a)) } i name g := by
  classical
  obtain ⟨h1, h2⟩ := shows_one h hp g hg
  obtain ⟨s1, s2⟩ := h2 (fun m => if Same m name then g else id) (fun m hm => if_pos hm) (fun m hm => if_neg hm)
  refine ⟨h1, s1, fun j m => ⟨fun hc => ?_, fun hc => ?_⟩⟩
  · have hl : v.look i m ≠ none := by
      rw [look_val h, show toKey .variables m = toKey ty name from hc.2]
      simp [World.val, hf]
    rw [(s2 j m).1 ⟨hc.1, hl⟩]
    simp only []
    rw [if_pos hc.2]
  · by_cases hc2 : Family v i j ∧ v.look i m ≠ none
    · rw [(s2 j m).1 hc2]
      simp only []
      rw [if_neg (fun hs => hc ⟨hc2.1, hs⟩)]
      simp
    · exact (s2 j m).2 hc2

theorem range_changed_le {first : Int} (h0 : 0 ≤ first) (m : Nat) (f : Nat → α → α) (x : List α) : rangeWith first.toNat m f x = Changed first (first + m - 1) f x := by
  unfold rangeWith Changed
  apply List.ext_getElem? fun j => ?_
  rw [List.getElem?_mapIdx, List.getElem?_mapIdx]
  cases x[j]? with
  | none => rfl
  | some y =>
    simp only [Option.map_some]
    by_cases hc : first ≤ j ∧ j ≤ first + m - 1
    · rw [if_pos hc, if_pos (by omega), show j - first.toNat = ((j : Int) - first).toNat by omega]
    · rw [if_neg hc, if_neg (by omega)]

theorem pair_go {v : VWorld α} (h : Inv v) {i : Nat} {name : Name} {a : Nat} (hp : (v.w.dbs i).getObjPtr ty name = some a) (hf : (v.w.dbs i).objs.find (toKey ty name) = some a)
    (stop : α → Bool) (g : α → α → α) {first last : Int} (h0 : 0 ≤ first) (h1 : first ≤ last) (h2 : last < v.nb i) (src : Src α) (ys : Nat → α) (m r : Nat) (hm : m + r = (last - first + 1).toNat)
    (hr : ∀ q, q < m → src.read v.w q = some (ys q)) (hs : ∀ q, q < m → stop (ys q) = false) (hfr : Free src a first.toNat 0 m) :
    ∃ w1, Inv ({ v with w := w1 } : VWorld α) ∧ ShowsOne v { v with w := w1 } i name (Changed first (first + m - 1) fun q x => g x (ys q)) ∧
      w1 = v.w.writeCore a (rangeWith first.toNat m (fun q x => g x (ys q)) (v.w.heap a)) ∧
      pairLoop stop g a src (last - first + 1).toNat first.toNat 0 v.w = pairLoop stop g a src r (first.toNat + m) m w1 := by
  have hlen := nb_eq_length h hf
  have e := pairLoop_add stop g a src r m first.toNat 0 v.w ys (fun q hq => by rw [Nat.zero_add]; exact hr q hq) hs hfr (by omega)
  have e2 := shows_one' h hp hf (Changed first (first + m - 1) fun q x => g x (ys q)) (by simp [Changed])
  refine ⟨_, ?_, ?_, rfl, by rw [← hm, e, Nat.zero_add]⟩
  · rw [range_changed_le h0]; exact e2.1
  · rw [range_changed_le h0]; exact e2.2

theorem opVar_go {v : VWorld α} (h : Inv v) (ar : Arith α) (o : BinOp) {i : Nat} {name : Name} {x : List α} (hx : v.look i name = some x) {first last : Int} (h0 : 0 ≤ first) (h1 : first ≤ last)
    (h2 : last < v.nb i) (src : Src α) :
    ∃ a, (v.w.dbs i).getObjPtr ty name = some a ∧ (v.w.dbs i).objs.find (toKey ty name) = some a ∧ v.w.heap a = x ∧
      opVar ar o v i name first last src = v.withW (pairLoop (fun y => decide (o = .div) && ar.isZero y) (ar.op o) a src (last - first + 1).toNat first.toNat 0 v.w) := by
  obtain ⟨n1, n2, -, a, p1, p2, p3⟩ := look_ptr h hx
  refine ⟨a, p1, p2, p3, ?_⟩
  unfold opVar
  rw [if_neg n1, if_neg (by omega), if_neg (by omega), if_neg (by omega), if_neg (by omega), if_neg (by simp [n2]), p1]

/-- `vars[name, range] op= values` changes the values of the range in the variable, each with its value, and nothing else. -/
theorem C75_one_var {v : VWorld α} (h : Inv v) (ar : Arith α) (o : BinOp) {i : Nat} {name : Name} {x : List α} (hx : v.look i name = some x) {first last : Int} (h0 : 0 ≤ first) (h1 : first ≤ last)
    (h2 : last < v.nb i) (values : List α) (ys : Nat → α) (hr : ∀ q : Nat, (q : Int) ≤ last - first → values[q]? = some (ys q)) (hz : o = .div → ∀ q : Nat, (q : Int) ≤ last - first → ar.isZero (ys q) = false) :
    ∃ v', opVar ar o v i name first last (.buf values) = (v', .ok true) ∧ Inv v' ∧ ShowsOne v v' i name (Changed first last fun q x => ar.op o x (ys q)) := by
  obtain ⟨a, p1, p2, p3, e⟩ := opVar_go h ar o hx h0 h1 h2 (.buf values)
  obtain ⟨w1, i1, s1, -, e1⟩ := pair_go h p1 p2 (fun y => decide (o = .div) && ar.isZero y) (ar.op o) h0 h1 h2 (.buf values) ys (last - first + 1).toNat 0 (by omega)
    (fun q hq => hr q (by omega)) (fun q hq => by
      by_cases ho : o = .div
      · simp [ho, hz ho q (by omega)]
      · simp [ho]) trivial
  refine ⟨_, by rw [e, e1]; rfl, i1, ?_⟩
  rwa [show first + ((last - first + 1).toNat : Int) - 1 = last by omega] at s1

/-- Division by values with a zero among them fails at the zero: the periods in front of it are divided, the others are not. -/
theorem C75_one_var_zero {v : VWorld α} (h : Inv v) (ar : Arith α) {i : Nat} {name : Name} {x : List α} (hx : v.look i name = some x) {first last : Int} (h0 : 0 ≤ first)
    (h2 : last < v.nb i) (values : List α) (ys : Nat → α) (m : Nat) (hm : (m : Int) ≤ last - first) (hr : ∀ q : Nat, q ≤ m → values[q]? = some (ys q))
    (hb : ∀ q : Nat, q < m → ar.isZero (ys q) = false) (hz : ar.isZero (ys m) = true) :
    ∃ v', opVar ar .div v i name first last (.buf values) = (v', .err) ∧ Inv v' ∧ ShowsOne v v' i name (Changed first (first + m - 1) fun q x => ar.op .div x (ys q)) := by
  obtain ⟨a, p1, p2, p3, e⟩ := opVar_go h ar .div hx h0 (by omega : first ≤ last) h2 (.buf values)
  obtain ⟨r, hr'⟩ : ∃ r, m + (r + 1) = (last - first + 1).toNat := ⟨(last - first).toNat - m, by omega⟩
  obtain ⟨w1, i1, s1, -, e1⟩ := pair_go h p1 p2 (fun y => decide (BinOp.div = .div) && ar.isZero y) (ar.op .div) h0 (by omega) h2 (.buf values) ys m (r + 1) hr'
    (fun q hq => hr q (by omega)) (fun q hq => by simp [hb q hq]) trivial
  refine ⟨_, ?_, i1, s1⟩
  rw [e, e1, pairLoop]
  simp only [Src.read, hr m (Nat.le_refl m), hz, decide_true, Bool.and_self, if_true]
  rfl

/-- Too few values: they are read behind the end of the array, which is undefined.  The function has no number of values to check. -/
theorem C75_one_var_short_undefined {v : VWorld α} (h : Inv v) (ar : Arith α) (o : BinOp) {i : Nat} {name : Name} {x : List α} (hx : v.look i name = some x) {first last : Int} (h0 : 0 ≤ first) (h1 : first ≤ last)
    (h2 : last < v.nb i) (values : List α) (hl : (values.length : Int) ≤ last - first) (hz : o = .div → ∀ y ∈ values, ar.isZero y = false) : (opVar ar o v i name first last (.buf values)).2 = .ub := by
  obtain ⟨a, p1, p2, p3, e⟩ := opVar_go h ar o hx h0 h1 h2 (.buf values)
  obtain ⟨r, hr'⟩ : ∃ r, values.length + (r + 1) = (last - first + 1).toNat := ⟨(last - first).toNat - values.length, by omega⟩
  rcases values with - | ⟨y0, vs⟩
  · rw [e, ← hr']
    simp only [List.length_nil, Nat.zero_add, pairLoop, Src.read]
    rfl
  obtain ⟨w1, i1, s1, -, e1⟩ := pair_go h p1 p2 (fun y => decide (o = .div) && ar.isZero y) (ar.op o) h0 h1 h2 (.buf (y0 :: vs)) (fun q => (y0 :: vs).getD q y0) (y0 :: vs).length (r + 1) hr'
    (fun q hq => by simp only [Src.read]; rw [List.getD_eq_getElem?_getD, List.getElem?_eq_getElem hq]; rfl) (fun q hq => by
      by_cases ho : o = .div
      · rw [hz ho _ (by rw [List.getD_eq_getElem?_getD, List.getElem?_eq_getElem hq]; exact List.getElem_mem hq)]; simp
      · simp [ho]) trivial
  rw [e, e1, pairLoop]
  have : (Src.buf (y0 :: vs)).read w1 (y0 :: vs).length = none := by simp [Src.read]
  rw [this]
  rfl

/-- Ranges outside the sample and unknown names are refused; nothing changes. -/
theorem C75_one_var_refused (v : VWorld α) (ar : Arith α) (o : BinOp) (i : Nat) (name : Name) (first last : Int) (src : Src α)
    (h : first < 0 ∨ last < first ∨ v.nb i ≤ last ∨ (v.w.dbs i).contains ty name = false) : opVar ar o v i name first last src = (v, .err) := by
  unfold opVar
  split_ifs with g1 g2 g3 g4 g5 g6
  all_goals first | rfl | skip
  rcases h with h | h | h | h
  · omega
  · omega
  · omega
  · exact absurd h g6

/-! ## Two variables -/

/-- The values that are read are not written before: another variable, or a range that does not begin in front of the one that is written, or one that ends in front of it. -/
def NotAhead (v : VWorld α) (i : Nat) (name : Name) (d1 : Int) (j : Nat) (other : Name) (s1 s2 : Int) : Prop :=
  ¬ (Family v i j ∧ Same other name) ∨ d1 ≤ s1 ∨ s2 < d1

theorem free_apart {v : VWorld α} (h : Inv v) {i j : Nat} {name other : Name} {d1 d2 s1 s2 : Int} {a b : Nat} (ha : (v.w.dbs i).objs.find (toKey ty name) = some a)
    (hb : (v.w.dbs j).objs.find (toKey ty other) = some b) (h0 : 0 ≤ d1) (g0 : 0 ≤ s1) (hn : d2 - d1 = s2 - s1) (hap : NotAhead v i name d1 j other s1 s2) :
    Free (.mem b s1.toNat : Src α) a d1.toNat 0 (d2 - d1 + 1).toNat := by
  rintro rfl p q hpq hq
  rcases hap with hap | hap | hap
  · have hr := h.base.good.wf.sep j i _ _ b hb ha
    exact absurd ⟨hr, h.base.good.unshared j i _ _ b (linked_family h hr) hb ha⟩ hap
  · omega
  · omega

theorem sane_true {v : VWorld α} {i j : Nat} {d1 d2 s1 s2 : Int} (hi : (v.w.dbs i).objs.length ≠ 0) (hj : (v.w.dbs j).objs.length ≠ 0) (h0 : 0 ≤ d1) (h1 : d1 ≤ d2) (h2 : d2 < v.nb i)
    (g0 : 0 ≤ s1) (g1 : s1 ≤ s2) (g2 : s2 < v.nb j) (hn : d2 - d1 = s2 - s1) : sane v i d1 d2 j s1 s2 = true := by
  unfold sane
  simp only [Bool.not_eq_true', Bool.or_eq_false_iff, decide_eq_false_iff_not]
  omega

/-- `vars[name, range] op= vars2[other, range2]` changes the values of the range in the variable, each with its value of the other one, and nothing else, if the values are not written before they are read. -/
theorem C75_two_vars {v : VWorld α} (h : Inv v) (ar : Arith α) (o : BinOp) {i j : Nat} {name other : Name} {x y : List α} (hx : v.look i name = some x) (hy : v.look j other = some y) {d1 d2 s1 s2 : Int}
    (h0 : 0 ≤ d1) (h1 : d1 ≤ d2) (h2 : d2 < v.nb i) (g0 : 0 ≤ s1) (g1 : s1 ≤ s2) (g2 : s2 < v.nb j) (hn : d2 - d1 = s2 - s1) (hap : NotAhead v i name d1 j other s1 s2)
    (hz : o = .div → ∀ t : Nat, ∀ z, s1 ≤ t → t ≤ s2 → y[t]? = some z → ar.isZero z = false) :
    ∃ v', opVars ar o v i name d1 d2 j other s1 s2 = (v', .ok true) ∧ Inv v' ∧
      ∃ ys : Nat → α, (∀ q : Nat, (q : Int) ≤ s2 - s1 → y[s1.toNat + q]? = some (ys q)) ∧ ShowsOne v v' i name (Changed d1 d2 fun q x => ar.op o x (ys q)) := by
  obtain ⟨n1, n2, n3, b, q1, q2, q3⟩ := look_ptr h hy
  obtain ⟨m1, m2, m3, -⟩ := look_ptr h hx
  obtain ⟨a, p1, p2, p3, e⟩ := opVar_go h ar o hx h0 h1 h2 (.mem b s1.toNat)
  have hlen := nb_eq_length h q2
  rw [q3] at hlen
  have hys : ∀ q : Nat, (q : Int) ≤ s2 - s1 → y[s1.toNat + q]? = some (y.getD (s1.toNat + q) (y[0]'(by omega))) := by
    intro q hq
    rw [List.getD_eq_getElem?_getD, List.getElem?_eq_getElem (by omega)]; rfl
  obtain ⟨w1, i1, t1, -, e1⟩ := pair_go h p1 p2 (fun y => decide (o = .div) && ar.isZero y) (ar.op o) h0 h1 h2 (.mem b s1.toNat) (fun q => y.getD (s1.toNat + q) (y[0]'(by omega))) (d2 - d1 + 1).toNat 0 (by omega)
    (fun q hq => by show (v.w.heap b)[s1.toNat + q]? = _; rw [q3]; exact hys q (by omega)) (fun q hq => by
      by_cases ho : o = .div
      · rw [hz ho (s1.toNat + q) _ (by omega) (by omega) (hys q (by omega))]; simp
      · simp [ho]) (free_apart h p2 q2 h0 g0 hn hap)
  refine ⟨_, ?_, i1, _, hys, by rwa [show d1 + ((d2 - d1 + 1).toNat : Int) - 1 = d2 by omega] at t1⟩
  unfold opVars
  rw [if_neg m1, if_neg n1, if_neg (by simp [sane_true m3 n3 h0 h1 h2 g0 g1 g2 hn]), if_neg (by simp [n2]), q1]
  simp only []
  rw [e, e1]
  rfl

/-- Copying a range of a variable into a range of another one gives these values, and nothing else changes, if the values are not written before they are read. -/
theorem C75_copy {v : VWorld α} (h : Inv v) {i j : Nat} {name other : Name} {x y : List α} (hx : v.look i name = some x) (hy : v.look j other = some y) {d1 d2 s1 s2 : Int}
    (h0 : 0 ≤ d1) (h1 : d1 ≤ d2) (h2 : d2 < v.nb i) (g0 : 0 ≤ s1) (g1 : s1 ≤ s2) (g2 : s2 < v.nb j) (hn : d2 - d1 = s2 - s1) (hap : NotAhead v i name d1 j other s1 s2) :
    ∃ v', copyContent v i name d1 d2 j other s1 s2 = (v', .ok true) ∧ Inv v' ∧
      ShowsOne v v' i name fun x => x.take d1.toNat ++ (y.drop s1.toNat).take (s2 - s1 + 1).toNat ++ x.drop (d2 + 1).toNat := by
  obtain ⟨n1, n2, n3, b, q1, q2, q3⟩ := look_ptr h hy
  obtain ⟨m1, m2, m3, a, p1, p2, p3⟩ := look_ptr h hx
  have hlen := nb_eq_length h q2
  rw [q3] at hlen
  have hys : ∀ q : Nat, (q : Int) ≤ s2 - s1 → y[s1.toNat + q]? = some (y.getD (s1.toNat + q) (y[0]'(by omega))) := by
    intro q hq
    rw [List.getD_eq_getElem?_getD, List.getElem?_eq_getElem (by omega)]; rfl
  obtain ⟨w1, i1, t1, -, e1⟩ := pair_go h p1 p2 (fun _ => false) (fun _ y => y) h0 h1 h2 (.mem b s1.toNat) (fun q => y.getD (s1.toNat + q) (y[0]'(by omega))) (d2 - d1 + 1).toNat 0 (by omega)
    (fun q hq => by show (v.w.heap b)[s1.toNat + q]? = _; rw [q3]; exact hys q (by omega)) (fun q hq => rfl) (free_apart h p2 q2 h0 g0 hn hap)
  rw [show d1 + ((d2 - d1 + 1).toNat : Int) - 1 = d2 by omega] at t1
  refine ⟨_, ?_, i1, t1.1, fun k m => ⟨fun hc => ?_, (t1.2 k m).2⟩⟩
  · unfold copyContent
    rw [if_neg m1, if_neg n1, if_neg (by simp [sane_true m3 n3 h0 h1 h2 g0 g1 g2 hn]), if_neg (by simp [m2]), if_neg (by simp [n2]), q1, p1]
    simp only []
    rw [e1]
    rfl
  · rw [(t1.2 k m).1 hc]
    cases hk : v.look k m with
    | none => rfl
    | some z =>
      have hz : z = x := by
        obtain ⟨-, -, -, c, -, c2, c3⟩ := look_ptr h hk
        rw [show toKey ty m = toKey ty name from hc.2] at c2
        rw [← c3, ← p3, find_family h hc.1 p2 c2]
      subst hz
      have hlx := nb_eq_length h p2
      rw [p3] at hlx
      simp only [Option.map_some, Option.some.injEq]
      unfold Changed
      apply List.ext_getElem? fun t => ?_
      rw [List.getElem?_mapIdx, List.append_assoc, List.getElem?_append, List.length_take, List.getElem?_append, List.length_take, List.length_drop]
      by_cases c1 : t < d1.toNat
      · rw [if_pos (by omega), List.getElem?_take, if_pos c1]
        cases z[t]? with
        | none => rfl
        | some u => rw [Option.map_some, if_neg (by omega)]
      · rw [if_neg (by omega)]
        by_cases c2 : (t : Int) ≤ d2
        · rw [if_pos (by omega), List.getElem?_eq_getElem (by omega : t < z.length), Option.map_some, if_pos (by omega), List.getElem?_take, if_pos (by omega), List.getElem?_drop,
            show s1.toNat + (t - min d1.toNat z.length) = s1.toNat + ((t : Int) - d1).toNat by omega, hys _ (by omega)]
        · rw [if_neg (by omega), List.getElem?_drop, show (d2 + 1).toNat + (t - min d1.toNat z.length - min (s2 - s1 + 1).toNat (y.length - s1.toNat)) = t by omega]
          cases z[t]? with
          | none => rfl
          | some u => rw [Option.map_some, if_neg (by omega)]

/-- Ranges outside the samples, ranges of different lengths, empty databases and unknown names are refused; nothing changes. -/
theorem C75_two_refused (v : VWorld α) (ar : Arith α) (o : BinOp) (i j : Nat) (name other : Name) (d1 d2 s1 s2 : Int)
    (h : d1 < 0 ∨ d2 < d1 ∨ v.nb i ≤ d2 ∨ s1 < 0 ∨ s2 < s1 ∨ v.nb j ≤ s2 ∨ d2 - d1 ≠ s2 - s1 ∨ (v.w.dbs i).contains ty name = false ∨ (v.w.dbs j).contains ty other = false) :
    opVars ar o v i name d1 d2 j other s1 s2 = (v, .err) ∧ copyContent v i name d1 d2 j other s1 s2 = (v, .err) := by
  have hs : sane v i d1 d2 j s1 s2 = true → ¬ (d1 < 0 ∨ d2 < d1 ∨ v.nb i ≤ d2 ∨ s1 < 0 ∨ s2 < s1 ∨ v.nb j ≤ s2 ∨ d2 - d1 ≠ s2 - s1) := by
    unfold sane
    simp only [Bool.not_eq_true', Bool.or_eq_false_iff, decide_eq_false_iff_not]
    omega
  constructor
  · unfold opVars
    split_ifs with f1 f2 f3 f4
    all_goals first | rfl | skip
    have := hs (by simpa using f3)
    have hc : (v.w.dbs i).contains ty name = false := by
      rcases h with h | h | h | h | h | h | h | h | h
      all_goals first | exact h | exact absurd h f4 | omega
    cases (v.w.dbs j).getObjPtr ty other with
    | none => rfl
    | some b => exact C75_one_var_refused v ar o i name d1 d2 _ (.inr (.inr (.inr hc)))
  · unfold copyContent
    split_ifs with f1 f2 f3 f4 f5
    all_goals first | rfl | skip
    have := hs (by simpa using f3)
    rcases h with h | h | h | h | h | h | h | h | h
    all_goals first | exact absurd h f4 | exact absurd h f5 | omega

/-! ## A new variable -/

/-- Adding a variable with a range of values of the first variable of another database: the database has it under the name, its other variables are the same, as are the databases of other families. -/
theorem C75_add {v : VWorld α} (h : Inv v) {i j : Nat} (hi : i < v.w.nDbs) (hk : (v.w.dbs i).kind ≠ .subset) (hne : (v.w.dbs i).objs.length ≠ 0) {name first : Name} {y : List α} (hj : Nth v j 0 first) (hy : v.look j first = some y)
    (hc : checkName .variables (toKey .variables name) = true) {s1 s2 : Int} (g0 : 0 ≤ s1) (g1 : s1 ≤ s2) (g2 : s2 < v.nb j) (hn : s2 - s1 + 1 = v.nb i) :
    ∃ v', addFrom v i name j s1 s2 = (v', .ok true) ∧ Inv v' ∧ v'.smp = v.smp ∧
      (∀ m, Same m name → v'.look i m = some ((y.drop s1.toNat).take (s2 - s1 + 1).toNat)) ∧ (∀ m, ¬ Same m name → v'.look i m = v.look i m) ∧
      ∀ k m, k < v.w.nDbs → ¬ Family v i k → v'.look k m = v.look k m := by
  obtain ⟨n1, n2, n3, b, q1, q2, q3⟩ := look_ptr h hy
  have hlen := nb_eq_length h q2
  rw [q3] at hlen
  have hname : name ≠ [] := by
    rintro rfl
    exact (checkName_chars hc).1 (by decide)
  obtain ⟨e, rest, ho⟩ : ∃ e rest, (v.w.dbs j).objs = e :: rest := by
    cases ho : (v.w.dbs j).objs with
    | nil => rw [ho] at n3; simp at n3
    | cons e rest => exact ⟨e, rest, rfl⟩
  obtain ⟨k0, b0⟩ := e
  have hk0 : k0 = toKey .variables first := by
    unfold Nth at hj
    rw [ho] at hj
    simpa [SMap.keys] using hj
  have hidem : toKey ty k0 = toKey ty first := by rw [hk0, toKey_idem]
  have hne0 : k0 ≠ [] := by
    rw [hk0]
    exact (checkName_chars (h.base.good.keys j _ ((SMap.mem_keys_iff _ _).mpr ⟨b, q2⟩))).1
  have hptr : (v.w.dbs j).getObjPtr ty k0 = some b := by
    rw [getObjPtr_of_ne (by decide), hidem, if_neg (by rw [← hk0]; exact hne0)]
    exact q2
  have hcont : (v.w.dbs j).contains ty k0 = true := by
    rw [contains_of_ne (by decide), hidem, SMap.has_iff]
    exact ⟨b, q2⟩
  set x := (y.drop s1.toNat).take (s2 - s1 + 1).toNat with hx
  have hxl : (x.length : Int) = v.nb i := by
    rw [hx, List.length_take, List.length_drop]
    omega
  obtain ⟨r1, r2, r3, r4⟩ := World.set_val (by decide : ObjType.variables ≠ .comments) h.base.good.wf hk hc x
  have hset : v.set i name x = v.withW (v.w.set ty i name x) := by
    unfold VWorld.set VWorld.setObjPtr World.set
    simp only []
    rw [if_pos]
    · rfl
    · unfold sizeOk
      rw [decide_eq_true_iff]
      show (((v.w.alloc x).1.heap (v.w.alloc x).2).length : Int) = v.nb i
      simpa [World.alloc] using hxl
  have hinv := (h.set hi name x).1
  rw [hset] at hinv
  refine ⟨(v.withW (v.w.set ty i name x)).1, ?_, hinv, rfl, ?_, ?_, ?_⟩
  · unfold addFrom
    rw [if_neg hname, if_neg (by rw [sane_true hne n3 (Int.le_refl 0) (by omega) (by omega) g0 g1 g2 (by omega)]; simp), ho]
    simp only []
    rw [if_neg (by simp [hcont]), hptr]
    simp only []
    rw [q3, readLoop_spec y _ _ (by omega), show (v.nb i).toNat = (s2 - s1 + 1).toNat by omega, ← hx]
    simp only []
    rw [hset]
    exact Prod.ext rfl r1
  · intro m hm
    rw [look_val hinv, show toKey .variables m = toKey ty name from hm]
    exact (r2 _).trans (if_pos rfl)
  · intro m hm
    rw [look_val hinv, look_val h]
    exact (r2 _).trans (if_neg hm)
  · intro k m hkn hf
    rw [look_val hinv, look_val h]
    exact (kept_of_steps (by decide) ⟨h.base.good, hi, hkn, hk, fun e => hf e.symm⟩ (set_steps ty (fl := ⟨false, false⟩) hi name x) (r3 i) r4).val _

/-- An empty database gets no variable this way. -/
theorem C75_add_empty (v : VWorld α) (i j : Nat) (name : Name) (s1 s2 : Int) (h : (v.w.dbs i).objs.length = 0) : addFrom v i name j s1 s2 = (v, .err) := by
  unfold addFrom sane
  split_ifs with g1 g2
  all_goals first | rfl | skip
  simp [h] at g2

/-! ## Examples and counterexamples -/

/-- Numbers without fractions. -/
def ints : Arith Int where
  op
    | .add => (· + ·)
    | .sub => (· - ·)
    | .mul => (· * ·)
    | .div => (· / ·)
    | .pow => fun x y => x ^ y.toNat
  isZero y := y == 0

/-- A workspace with two variables, a subset of it, and another workspace. -/
def history : List (VOp Int) :=
  [.create true, .setSample 0 smp4, .set 0 "A".toList [1, 2, 3, 4], .set 0 "B".toList [4, 5, 6, 7], .subset 0 (some ["A".toList]) false,
   .create false, .setSample 2 smp4, .set 2 "C".toList [10, 20, 30, 40]]

def start : VWorld Int := (VWorld.init : VWorld Int).run (-1) history

theorem start_inv : Inv start := Inv.init.run history (by
  have h4 := smp4_fair
  simp only [Regular, history, VOp.RenamesOntoUsed, VOp.ClearsSubset, VOp.BadSample]
  simp [h4])

/-- The hypotheses of `C75_scalar`: the subset multiplies, the workspace shows it, the other variables stay. -/
example : Inv start ∧ (0 : Int) ≤ 1 ∧ (1 : Int) ≤ 2 ∧ 2 < start.nb 1 ∧ (opScalar ints .mul start 1 1 2 10).2 = .ok true ∧
    (opScalar ints .mul start 1 1 2 10).1.look 1 "A".toList = some [1, 20, 30, 4] ∧ (opScalar ints .mul start 1 1 2 10).1.look 0 "A".toList = some [1, 20, 30, 4] ∧
    (opScalar ints .mul start 1 1 2 10).1.look 0 "B".toList = some [4, 5, 6, 7] := ⟨start_inv, by decide +kernel⟩

/-- The refusals of `C75_scalar_refused`. -/
example : (opScalar ints .mul start 0 1 4 10).2 = .err ∧ (opScalar ints .div start 0 1 2 0).2 = .err ∧ (opScalar ints .div start 0 1 2 0).1.look 0 "A".toList = some [1, 2, 3, 4] := by decide +kernel

/-- The hypotheses of `C75_period`. -/
example : (0 : Int) ≤ 2 ∧ 2 < start.nb 0 ∧ [100, 200].length = (start.w.dbs 0).objs.length ∧ Nth start 0 0 "A".toList ∧ Nth start 0 1 "B".toList ∧
    (opPeriod ints .add start 0 2 [100, 200]).1.look 0 "A".toList = some [1, 2, 103, 4] ∧ (opPeriod ints .add start 0 2 [100, 200]).1.look 0 "B".toList = some [4, 5, 206, 7] := by
  unfold Nth; decide +kernel

/-- The hypotheses of `C75_period_zero`: the first variable is divided, the second one is not. -/
example : ([2] ++ (0 : Int) :: []).length = (start.w.dbs 0).objs.length ∧ ints.isZero 0 = true ∧ (∀ y ∈ [(2 : Int)], ints.isZero y = false) ∧ (opPeriod ints .div start 0 3 [2, 0]).2 = .err ∧
    (opPeriod ints .div start 0 3 [2, 0]).1.look 0 "A".toList = some [1, 2, 3, 2] ∧ (opPeriod ints .div start 0 3 [2, 0]).1.look 0 "B".toList = some [4, 5, 6, 7] := by decide +kernel

example : (opPeriod ints .add start 0 2 [100]).2 = .err ∧ (opPeriod ints .add start 0 4 [100, 200]).2 = .err := by decide +kernel

/-- The hypotheses of `C75_one_var` and of `C75_one_var_zero`. -/
example : start.look 0 "B".toList = some [4, 5, 6, 7] ∧ (opVar ints .sub start 0 "B".toList 1 2 (.buf [1, 2])).1.look 0 "B".toList = some [4, 4, 4, 7] ∧
    (opVar ints .div start 0 "B".toList 0 2 (.buf [2, 0, 2])).2 = .err ∧ (opVar ints .div start 0 "B".toList 0 2 (.buf [2, 0, 2])).1.look 0 "B".toList = some [2, 5, 6, 7] := by decide +kernel

/-- The hypotheses of `C75_one_var_short_undefined`. -/
example : start.look 0 "B".toList = some [4, 5, 6, 7] ∧ (([1] : List Int).length : Int) ≤ 2 - 1 ∧ (opVar ints .sub start 0 "B".toList 1 2 (.buf [1])).2 = .ub ∧
    (opVar ints .sub start 0 "X".toList 1 2 (.buf [1])).2 = .err := by decide +kernel

/-- The hypotheses of `C75_two_vars` and of `C75_copy`: another variable, and a range of the same one that begins behind. -/
example : start.look 0 "A".toList = some [1, 2, 3, 4] ∧ start.look 2 "C".toList = some [10, 20, 30, 40] ∧ NotAhead start 0 "A".toList 0 2 "C".toList 2 3 ∧
    (opVars ints .add start 0 "A".toList 0 1 2 "C".toList 2 3).1.look 0 "A".toList = some [31, 42, 3, 4] ∧
    NotAhead start 0 "A".toList 0 1 "A".toList 1 3 ∧ (copyContent start 0 "A".toList 0 2 1 "A".toList 1 3).1.look 0 "A".toList = some [2, 3, 4, 4] := by
  refine ⟨by decide +kernel, by decide +kernel, .inr (.inl (by decide)), by decide +kernel, .inr (.inl (by decide)), by decide +kernel⟩

example : (opVars ints .add start 0 "A".toList 0 1 2 "C".toList 1 3).2 = .err ∧ (copyContent start 0 "A".toList 0 1 2 "D".toList 2 3).2 = .err := by decide +kernel

/-- A range copied into a later one of the same variable that overlaps it: the values are written before they are read, the first one is repeated.  The second operand may come from a subset of the same workspace. -/
theorem C75_overlap_counterexample : Inv start ∧ start.look 0 "A".toList = some [1, 2, 3, 4] ∧ (copyContent start 0 "A".toList 1 3 0 "A".toList 0 2).2 = .ok true ∧
    (copyContent start 0 "A".toList 1 3 0 "A".toList 0 2).1.look 0 "A".toList = some [1, 1, 1, 1] ∧ (opVars ints .add start 0 "A".toList 1 3 1 "A".toList 0 2).2 = .ok true ∧
    (opVars ints .add start 0 "A".toList 1 3 1 "A".toList 0 2).1.look 0 "A".toList = some [1, 3, 6, 10] := ⟨start_inv, by decide +kernel⟩

/-- The hypotheses of `C75_add`. -/
example : 0 < start.w.nDbs ∧ (start.w.dbs 0).kind ≠ .subset ∧ Nth start 2 0 "C".toList ∧ checkName .variables (toKey .variables "D".toList) = true ∧
    (addFrom start 0 "D".toList 2 0 3).1.look 0 "D".toList = some [10, 20, 30, 40] ∧ (addFrom start 0 "D".toList 2 0 3).1.look 0 "A".toList = some [1, 2, 3, 4] := by unfold Nth; decide +kernel

/-- The variable that is copied is the first one of the source, whatever the name: `A` is not asked for. -/
theorem C75_add_first_counterexample : (addFrom start 2 "B".toList 0 0 3).2 = .ok true ∧ start.look 0 "B".toList = some [4, 5, 6, 7] ∧
    (addFrom start 2 "B".toList 0 0 3).1.look 2 "B".toList = some [1, 2, 3, 4] := by decide +kernel

/-! ### Missing values -/

/-- The missing value, -2e37, and the test for numbers, api/constants.h 123 and 228. -/
def missing : Rat := -2 * 10 ^ 37
def isNumber (x : Rat) : Bool := decide (-(10 ^ 37) ≤ x)

def rats : Arith Rat where
  op
    | .add => (· + ·)
    | .sub => (· - ·)
    | .mul => (· * ·)
    | .div => (· / ·)
    | .pow => fun x y => x ^ y.num.toNat
  isZero y := y == 0

def gaps : VWorld Rat := (VWorld.init : VWorld Rat).run missing [.create true, .setSample 0 smp3, .set 0 "A".toList [1, missing, 3]]

/-- A missing value times -1 is a number, as is a missing value divided by 4: the operations do not know missing values. -/
theorem C75_missing_counterexample : gaps.look 0 "A".toList = some [1, missing, 3] ∧ isNumber missing = false ∧
    (opScalar rats .mul gaps 0 0 2 (-1)).1.look 0 "A".toList = some [-1, 2 * 10 ^ 37, -3] ∧ isNumber (2 * 10 ^ 37) = true ∧
    (opScalar rats .div gaps 0 0 2 4).1.look 0 "A".toList = some [1 / 4, -5 * 10 ^ 36, 3 / 4] ∧ isNumber (-5 * 10 ^ 36) = true := by decide +kernel

/-- Adding or subtracting a usual number keeps missing values missing. -/
theorem C75_missing_add (c : Rat) (h : c < 10 ^ 37) : isNumber (rats.op .add missing c) = false ∧ isNumber (rats.op .sub missing (-c)) = false := by
  unfold isNumber rats missing
  simp only [decide_eq_false_iff_not, not_le]
  constructor <;> linarith

example : (5 : Rat) < 10 ^ 37 := by norm_num

end Iode.VarOps
