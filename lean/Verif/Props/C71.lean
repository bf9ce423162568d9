import Verif.Lemmas.Scc
import Verif.Props.C35

/-!
# C71: a simulation that follows the lists of `calculate_SCC` gives what a simulation that orders the model itself gives
-/
namespace Iode.Scc

open Iode.Sim Iode.Lec
open Iode.Lists (Ident GoodWord)

variable {F : Type}

/-- How `simulate` sorts when it does what `calculate_SCC` did with this number of passes. -/
def sortOf (tris : Int) : SortBy := if 0 < tris then .both else .connex

/-- The names of equations in a workspace. -/
def Named (qs : List (Src F)) : Prop := (qs.map (·.name)).Nodup ∧ ∀ q ∈ qs, toKey .equations q.name = q.name ∧ GoodWord q.name

/-- The name of a list under which names can be kept: short, and no name starts with the other one. -/
def Apart (a b : Name) : Prop := ¬ toUpper a <+: toUpper b ∧ ¬ toUpper b <+: toUpper a

/-! ## Small facts -/

theorem strings_table (l : List Name) : strings (Lists.table l) = l := by
  induction l with
  | nil => rfl
  | cons a l ih => exact congrArg (a :: ·) ih

theorem prefix_comparable {a b k : Name} (ha : a <+: k) (hb : b <+: k) : a <+: b ∨ b <+: a := by
  by_cases h : a.length ≤ b.length
  · exact .inl (List.prefix_of_prefix_length_le ha hb h)
  · exact .inr (List.prefix_of_prefix_length_le hb ha (by omega))

theorem toUpperC_idem (c : Char) : toUpperC (toUpperC c) = toUpperC c := by
  apply SMap.char_eq_of_toNat
  rw [toNat_toUpperC, toNat_toUpperC]
  split <;> (try split) <;> omega

theorem prefix_upper {a k : Name} (h : toUpper a <+: k) : toUpper a <+: toUpper k := by
  have h2 : toUpper (toUpper a) <+: toUpper k := List.IsPrefix.map toUpperC h
  have : toUpper (toUpper a) = toUpper a := by
    unfold toUpper
    rw [List.map_map]
    exact List.map_congr_left fun c _ => toUpperC_idem c
  rwa [this] at h2

theorem filter_sublist {qs all : List (Src F)} (h : qs.Sublist all) : (all.map (·.name)).Nodup →
    (all.filter fun q => decide (q.name ∈ qs.map (·.name))) = qs := by
  induction h with
  | slnil => intro _; rfl
  | cons q h ih =>
    intro hd
    rw [List.map_cons, List.nodup_cons] at hd
    rw [List.filter_cons, if_neg, ih hd.2]
    simp only [decide_eq_true_eq]
    intro hm
    exact hd.1 ((h.map _).subset hm)
  | cons_cons q h ih =>
    rename_i l₁ l₂
    intro hd
    rw [List.map_cons, List.nodup_cons] at hd
    rw [List.filter_cons, if_pos (by simp)]
    refine congrArg (q :: ·) ?_
    rw [← ih hd.2]
    apply List.filter_congr
    intro x hx
    have : x.name ≠ q.name := fun e => hd.1 (e ▸ List.mem_map_of_mem hx)
    rw [ih hd.2]
    simp [this]

theorem linkAll_spec {dbv : List Name} {scl : Name → Bool} : ∀ {qs : List (Src F)} {es : List (Eqn F)}, linkAll dbv scl qs = some es →
    es.map (·.objs) = (qs.map (·.objs)).map (linked dbv) ∧ (∀ q ∈ qs, q.name ∈ dbv) ∧ ∀ l ∈ qs.map (·.objs), ∀ x ∈ l, isCoef x = false → x ∈ dbv := by
  intro qs
  induction qs with
  | nil => intro es h; cases h; simp
  | cons q qs ih =>
    intro es h
    unfold linkAll at h
    cases h1 : link dbv scl q with
    | none => rw [h1] at h; cases h
    | some e =>
      cases h2 : linkAll dbv scl qs with
      | none => rw [h1, h2] at h; cases h
      | some es' =>
        rw [h1, h2] at h
        cases h
        obtain ⟨i1, i2, i3⟩ := ih h2
        unfold link at h1
        split at h1
        · rename_i hc
          cases h1
          refine ⟨by simp [i1, linked], ?_, ?_⟩
          · intro x hx
            rcases List.mem_cons.mp hx with rfl | hx
            · exact hc.1
            · exact i2 x hx
          · intro l hl x hx hx'
            rcases List.mem_cons.mp hl with rfl | hl
            · have := hc.2 x hx
              rw [hx'] at this
              simpa using this
            · exact i3 l hl x hx hx'
        · cases h1

theorem blocks_ok (tris : Int) (qs : List (Src F)) : ∃ b, blocks tris qs = .ok b ∧ b.order.Perm (List.range qs.length) := by
  unfold blocks
  have h := C32_order_is_a_permutation (if 0 < tris then .both else .connex) (by split <;> simp) tris.toNat (own qs.length)
    (qs.map fun q => pseudo (qs.map (·.name)) q.objs) []
  simpa using h

theorem name_at {qs : List (Src F)} {i : Nat} (h : i < qs.length) : nameAt qs i ∈ qs.map (·.name) ∧ ((qs.map (·.name)).Nodup → (qs.map (·.name)).idxOf (nameAt qs i) = i) := by
  have h' : i < (qs.map (·.name)).length := by simpa using h
  unfold nameAt
  rw [List.getD_eq_getElem _ _ h']
  exact ⟨List.getElem_mem h', fun hd => List.Nodup.idxOf_getElem hd i h'⟩

theorem places_ok {qs : List (Src F)} (hq : Named qs) {l : List Nat} (h : ∀ i ∈ l, i < qs.length) : places qs (l.map (nameAt qs)) = .ok l := by
  have hk : ∀ i ∈ l, toKey .equations (nameAt qs i) = nameAt qs i := by
    intro i hi
    obtain ⟨q, hm, e⟩ := List.mem_map.mp (name_at (h i hi)).1
    rw [← e]
    exact (hq.2 q hm).1
  unfold places
  rw [if_pos]
  · rw [List.map_map]
    congr 1
    refine (List.map_congr_left fun i hi => ?_).trans (List.map_id _)
    rw [Function.comp_apply, hk i hi, (name_at (h i hi)).2 hq.1]
    rfl
  · intro w hw
    obtain ⟨i, hi, rfl⟩ := List.mem_map.mp hw
    rw [hk i hi]
    exact (name_at (h i hi)).1

theorem good_names {qs : List (Src F)} (hq : Named qs) {l : List Nat} (h : ∀ i ∈ l, i < qs.length) : ∀ w ∈ l.map (nameAt qs), GoodWord w := by
  intro w hw
  obtain ⟨i, hi, rfl⟩ := List.mem_map.mp hw
  obtain ⟨q, hm, e⟩ := List.mem_map.mp (name_at (h i hi)).1
  rw [← e]
  exact (hq.2 q hm).2

theorem subset_all {all qs : List (Src F)} (hs : qs.Sublist all) (ha : (all.map (·.name)).Nodup) (hq : Named qs) {b : Blocks} (hb : b.order.Perm (List.range qs.length)) :
    subset (b.pre.map (nameAt qs) ++ b.inter.map (nameAt qs) ++ b.post.map (nameAt qs)) all = qs := by
  refine Eq.trans ?_ (filter_sublist hs ha)
  unfold subset
  apply List.filter_congr
  intro q _
  have e : b.pre.map (nameAt qs) ++ b.inter.map (nameAt qs) ++ b.post.map (nameAt qs) = b.order.map (nameAt qs) := by
    unfold Blocks.order; rw [List.map_append, List.map_append]
  have : (q.name ∈ (b.order.map (nameAt qs)).map (toKey .equations)) ↔ q.name ∈ qs.map (·.name) := by
    constructor
    · intro h
      obtain ⟨w, hw, hw'⟩ := List.mem_map.mp h
      obtain ⟨i, hi, rfl⟩ := List.mem_map.mp hw
      have hi' : i < qs.length := by simpa using hb.subset hi
      obtain ⟨p, hp, e⟩ := List.mem_map.mp (name_at hi').1
      rw [← hw', ← e, (hq.2 p hp).1]
      exact List.mem_map_of_mem hp
    · intro h
      have hi := List.idxOf_lt_length_iff.mpr h
      have hi' : (qs.map (·.name)).idxOf q.name < qs.length := by simpa using hi
      refine List.mem_map.mpr ⟨q.name, List.mem_map.mpr ⟨(qs.map (·.name)).idxOf q.name, hb.symm.subset (by simpa using hi'), ?_⟩, ?_⟩
      · unfold nameAt
        rw [List.getD_eq_getElem _ _ hi]
        exact List.getElem_idxOf hi
      · obtain ⟨p, hp, e⟩ := List.mem_map.mp h
        rw [← e]
        exact (hq.2 p hp).1
  rw [e, decide_eq_decide]
  exact this

/-! ## The lists -/

/-- The three lists contain the names of all equations, each once, in the order found; other lists are kept unless their names start with the name
    of one of the three. -/
theorem C71_lists (st : Lists.Store) (tris : Int) {pre inter post : Name} (h1 : Ident pre) (h2 : Ident inter) (h3 : Ident post) (l1 : pre.length ≤ 15)
    (l2 : inter.length ≤ 15) (l3 : post.length ≤ 15) (a12 : Apart pre inter) (a13 : Apart pre post) (a23 : Apart inter post) {qs : List (Src F)}
    (h0 : qs ≠ []) (hq : Named qs) (hn : qs.length ≤ 1000000) :
    ∃ b st', blocks tris qs = .ok b ∧ b.order.Perm (List.range qs.length) ∧ calculate st tris pre inter post qs = .ok (some st') ∧
      Holds st' pre (b.pre.map (nameAt qs)) ∧ Holds st' inter (b.inter.map (nameAt qs)) ∧ Holds st' post (b.post.map (nameAt qs)) ∧
      ∀ k, ¬ toUpper pre <+: toUpper k → ¬ toUpper inter <+: toUpper k → ¬ toUpper post <+: toUpper k → st'.find k = st.find k := by
  obtain ⟨b, hb, hp⟩ := blocks_ok tris qs
  have hlt : ∀ i ∈ b.order, i < qs.length := fun i hi => by simpa using hp.subset hi
  have hlen : b.pre.length + b.inter.length + b.post.length = qs.length := by
    have := hp.length_eq
    simp only [Blocks.order, List.length_append, List.length_range] at this
    omega
  have m1 : ∀ i ∈ b.pre, i < qs.length := fun i hi => hlt i (by simp [Blocks.order, hi])
  have m2 : ∀ i ∈ b.inter, i < qs.length := fun i hi => hlt i (by simp [Blocks.order, hi])
  have m3 : ∀ i ∈ b.post, i < qs.length := fun i hi => hlt i (by simp [Blocks.order, hi])
  obtain ⟨s1, w1, p1, f1⟩ := writeBlock_spec st h1 l1 (good_names hq m1) (by rw [List.length_map]; omega)
  obtain ⟨s2, w2, p2, f2⟩ := writeBlock_spec s1 h2 l2 (good_names hq m2) (by rw [List.length_map]; omega)
  obtain ⟨s3, w3, p3, f3⟩ := writeBlock_spec s2 h3 l3 (good_names hq m3) (by rw [List.length_map]; omega)
  have frame : ∀ {s s' : Lists.Store} {a c : Name}, Apart a c →
      (∀ k, ¬ toUpper c <+: k → s'.find k = if toUpper c <+: toUpper k then none else s.find k) → ∀ k, toUpper a <+: k → s'.find k = s.find k := by
    intro s s' a c hac hf k hk
    have hc : ¬ toUpper c <+: toUpper k := by
      intro h
      rcases prefix_comparable (prefix_upper hk) h with h | h
      · exact hac.1 h
      · exact hac.2 h
    rw [hf k (fun h => hc (prefix_upper h)), if_neg hc]
  refine ⟨b, s3, hb, hp, ?_, ?_, ?_, p3, ?_⟩
  · unfold calculate
    rw [if_neg h0, hb]
    simp only [Res.bind, w1, w2, w3]
  · exact (p1.frame h1 (frame a12 f2)).frame h1 (frame a13 f3)
  · exact p2.frame h2 (frame a23 f3)
  · intro k k1 k2 k3
    rw [f3 k (fun h => k3 (prefix_upper h)), if_neg k3, f2 k (fun h => k2 (prefix_upper h)), if_neg k2, f1 k (fun h => k1 (prefix_upper h)), if_neg k1]

/-! ## The simulation -/

theorem simulateSCC_same (A : Flo F) (o : SimOpts F) (nb : Nat) (dbv : List Name) (scl : Name → Bool) {qs : List (Src F)} (hq : Named qs) {tris : Int}
    {b : Blocks} (hb : blocks tris qs = .ok b) (hp : b.order.Perm (List.range qs.length)) (t : Int) (n : Nat) (s : Sim.Store F) :
    simulateSCC A o nb dbv scl qs (b.pre.map (nameAt qs)) (b.inter.map (nameAt qs)) (b.post.map (nameAt qs)) t n s =
      simulate A o (sortOf tris) tris.toNat nb dbv scl qs t n s := by
  have hlt : ∀ i ∈ b.order, i < qs.length := fun i hi => by simpa using hp.subset hi
  unfold simulateSCC simulate
  by_cases h0 : qs = []
  · rw [if_pos h0, if_pos h0]
  rw [if_neg h0, if_neg h0]
  cases hl : linkAll dbv scl qs with
  | none => rfl
  | some es =>
    obtain ⟨e1, e2, e3⟩ := linkAll_spec hl
    have ho : order (sortOf tris) tris.toNat (endoOf dbv qs) (es.map (·.objs)) [] = .ok b := by
      have := order_same (dbv := dbv) (names := qs.map (·.name)) hq.1 (by simpa using e2) (objs := qs.map (·.objs)) (by simp) e3
        (sort := sortOf tris) (by unfold sortOf; split <;> simp) tris.toNat
      rw [← e1] at this
      unfold endoOf
      rw [List.map_map] at this
      rw [show (fun q : Src F => dbv.idxOf q.name) = (fun a => dbv.idxOf a) ∘ (·.name) from rfl, this]
      rw [← hb]
      unfold blocks sortOf
      rw [List.length_map, List.map_map]
      rfl
    simp only [Sim.simulate]
    rw [ho, places_ok hq fun i hi => hlt i (by simp [Blocks.order, hi]), places_ok hq fun i hi => hlt i (by simp [Blocks.order, hi]),
      places_ok hq fun i hi => hlt i (by simp [Blocks.order, hi])]
    rfl

/-- After `$ModelCalcSCC` the command `$ModelSimulateSCC` does what `simulate` does with the same order, for all options, variables, periods and values, as
    long as the lists are there and the equations have not changed; `all` is the workspace of equations. -/
theorem C71_report {st' : Lists.Store} {tris : Int} {pre inter post : Name} {qs all : List (Src F)} (h0 : qs ≠ []) (hq : Named qs) (hs : qs.Sublist all)
    (ha : (all.map (·.name)).Nodup) {b : Blocks} (hb : blocks tris qs = .ok b) (hp : b.order.Perm (List.range qs.length))
    (p1 : Holds st' pre (b.pre.map (nameAt qs))) (p2 : Holds st' inter (b.inter.map (nameAt qs))) (p3 : Holds st' post (b.post.map (nameAt qs))) :
    ∃ N, ∀ fuel, N ≤ fuel → ∀ (A : Flo F) (o : SimOpts F) (nb : Nat) (dbv : List Name) (scl : Name → Bool) (t : Int) (n : Nat) (s : Sim.Store F),
      reportSimulate A o nb dbv scl st' fuel pre inter post all t n s = simulate A o (sortOf tris) tris.toNat nb dbv scl qs t n s := by
  obtain ⟨c1, f1, -, x1⟩ := p1
  obtain ⟨c2, f2, -, x2⟩ := p2
  obtain ⟨c3, f3, -, x3⟩ := p3
  obtain ⟨N1, x1⟩ := x1 st' fun _ _ => rfl
  obtain ⟨N2, x2⟩ := x2 st' fun _ _ => rfl
  obtain ⟨N3, x3⟩ := x3 st' fun _ _ => rfl
  refine ⟨N1 + N2 + N3, fun fuel hf A o nb dbv scl t n s => ?_⟩
  unfold reportSimulate readLists
  simp only [f1, f2, f3, x1 fuel (by omega), x2 fuel (by omega), x3 fuel (by omega), Res.bind, strings_table, subset_all hs ha hq hp]
  rw [if_neg (by simp [h0])]
  exact simulateSCC_same A o nb dbv scl hq hb hp t n s

/-- The same for `model_simulate_SCC`, if the prolog and the block are not empty. -/
theorem C71_api {st' : Lists.Store} {tris : Int} {pre inter post : Name} {qs all : List (Src F)} (h0 : qs ≠ []) (hq : Named qs) (hs : qs.Sublist all)
    (ha : (all.map (·.name)).Nodup) {b : Blocks} (hb : blocks tris qs = .ok b) (hp : b.order.Perm (List.range qs.length))
    (p1 : Holds st' pre (b.pre.map (nameAt qs))) (p2 : Holds st' inter (b.inter.map (nameAt qs))) (p3 : Holds st' post (b.post.map (nameAt qs)))
    (n1 : b.pre ≠ []) (n2 : b.inter ≠ []) :
    ∃ N, ∀ fuel, N ≤ fuel → ∀ (A : Flo F) (o : SimOpts F) (nb : Nat) (dbv : List Name) (scl : Name → Bool) (t : Int) (n : Nat) (s : Sim.Store F),
      apiSimulate A o nb dbv scl st' fuel pre inter post all t n s = simulate A o (sortOf tris) tris.toNat nb dbv scl qs t n s := by
  obtain ⟨c1, f1, g1, x1⟩ := p1
  obtain ⟨c2, f2, g2, x2⟩ := p2
  obtain ⟨c3, f3, -, x3⟩ := p3
  obtain ⟨N1, x1⟩ := x1 st' fun _ _ => rfl
  obtain ⟨N2, x2⟩ := x2 st' fun _ _ => rfl
  obtain ⟨N3, x3⟩ := x3 st' fun _ _ => rfl
  refine ⟨N1 + N2 + N3, fun fuel hf A o nb dbv scl t n s => ?_⟩
  unfold apiSimulate readLists
  simp only [f1, f2, f3, x1 fuel (by omega), x2 fuel (by omega), x3 fuel (by omega), Res.bind, strings_table, subset_all hs ha hq hp]
  rw [if_neg, if_neg h0]
  · exact simulateSCC_same A o nb dbv scl hq hb hp t n s
  · rw [g1, g2]
    simp [n1, n2]

/-- Both steps together. -/
theorem C71_same (st : Lists.Store) (tris : Int) {pre inter post : Name} (h1 : Ident pre) (h2 : Ident inter) (h3 : Ident post) (l1 : pre.length ≤ 15)
    (l2 : inter.length ≤ 15) (l3 : post.length ≤ 15) (a12 : Apart pre inter) (a13 : Apart pre post) (a23 : Apart inter post) {qs all : List (Src F)}
    (h0 : qs ≠ []) (hq : Named qs) (hn : qs.length ≤ 1000000) (hs : qs.Sublist all) (ha : (all.map (·.name)).Nodup) :
    ∃ st', calculate st tris pre inter post qs = .ok (some st') ∧ ∃ N, ∀ fuel, N ≤ fuel →
      ∀ (A : Flo F) (o : SimOpts F) (nb : Nat) (dbv : List Name) (scl : Name → Bool) (t : Int) (n : Nat) (s : Sim.Store F),
      reportSimulate A o nb dbv scl st' fuel pre inter post all t n s = simulate A o (sortOf tris) tris.toNat nb dbv scl qs t n s := by
  obtain ⟨b, st', hb, hp, hc, p1, p2, p3, -⟩ := C71_lists st tris h1 h2 h3 l1 l2 l3 a12 a13 a23 h0 hq hn
  exact ⟨st', hc, C71_report h0 hq hs ha hb hp p1 p2 p3⟩

/-- Without a prolog (or without a block) `model_simulate_SCC` looks at the last character of an empty string: whatever the model, the options and
    the values, this is undefined. -/
theorem C71_empty_undefined {st' : Lists.Store} {pre inter post : Name} {qs all : List (Src F)} {b : Blocks}
    (p1 : Holds st' pre (b.pre.map (nameAt qs))) (p2 : Holds st' inter (b.inter.map (nameAt qs))) (p3 : Holds st' post (b.post.map (nameAt qs)))
    (he : b.pre = [] ∨ b.inter = []) :
    ∃ N, ∀ fuel, N ≤ fuel → ∀ (A : Flo F) (o : SimOpts F) (nb : Nat) (dbv : List Name) (scl : Name → Bool) (t : Int) (n : Nat) (s : Sim.Store F),
      apiSimulate A o nb dbv scl st' fuel pre inter post all t n s = .ub := by
  obtain ⟨c1, f1, g1, x1⟩ := p1
  obtain ⟨c2, f2, g2, x2⟩ := p2
  obtain ⟨c3, f3, -, x3⟩ := p3
  obtain ⟨N1, x1⟩ := x1 st' fun _ _ => rfl
  obtain ⟨N2, x2⟩ := x2 st' fun _ _ => rfl
  obtain ⟨N3, x3⟩ := x3 st' fun _ _ => rfl
  refine ⟨N1 + N2 + N3, fun fuel hf A o nb dbv scl t n s => ?_⟩
  unfold apiSimulate readLists
  simp only [f1, f2, f3, x1 fuel (by omega), x2 fuel (by omega), x3 fuel (by omega), Res.bind]
  rw [if_pos]
  rw [g1, g2]
  simpa using he

/-- Without the lists nothing is simulated. -/
theorem C71_refused (A : Flo F) (o : SimOpts F) (nb : Nat) (dbv : List Name) (scl : Name → Bool) {st : Lists.Store} (fuel : Nat) {pre inter post : Name}
    (qs : List (Src F)) (t : Int) (n : Nat) (s : Sim.Store F)
    (h : st.find (toKey .lists pre) = none ∨ st.find (toKey .lists inter) = none ∨ st.find (toKey .lists post) = none) :
    reportSimulate A o nb dbv scl st fuel pre inter post qs t n s = .ok none ∧ apiSimulate A o nb dbv scl st fuel pre inter post qs t n s = .ok none := by
  unfold reportSimulate apiSimulate
  rcases h with h | h | h <;> rw [h] <;> constructor <;> repeat (first | rfl | (split; simp_all))

/-- A model is refused when one of its equations uses a variable or a scalar that is not there, or when its own variable is not there. -/
theorem C71_missing (A : Flo F) (o : SimOpts F) (sort : SortBy) (passes nb : Nat) (dbv : List Name) (scl : Name → Bool) {qs : List (Src F)} (t : Int) (n : Nat)
    (s : Sim.Store F) {q : Src F} (hq : q ∈ qs)
    (h : q.name ∉ dbv ∨ ∃ x ∈ q.objs, (isCoef x = true → scl x = false) ∧ (isCoef x = false → x ∉ dbv)) :
    simulate A o sort passes nb dbv scl qs t n s = .ok none := by
  have hl : link dbv scl q = none := by
    unfold link
    rw [if_neg]
    rintro ⟨h1, h2⟩
    rcases h with h | ⟨x, hx, g1, g2⟩
    · exact h h1
    · have := h2 x hx
      cases hc : isCoef x <;> simp_all
  have hall : ∀ qs : List (Src F), q ∈ qs → linkAll dbv scl qs = none := by
    intro qs hq
    induction qs with
    | nil => cases hq
    | cons a qs ih =>
      rw [linkAll]
      rcases List.mem_cons.1 hq with rfl | hq
      · rw [hl]; rfl
      · rw [ih hq]
        cases link dbv scl a <;> rfl
  unfold simulate
  rw [hall qs hq]
  split <;> rfl

/-! ## Examples -/

/-- `A := X`, `B := A + C`, `C := B`, `D := C`. -/
def exQs : List (Src Rat) :=
  [⟨"A".toList, ["A".toList, "X".toList], false, fun s t => .ok (s 4 t)⟩, ⟨"B".toList, ["A".toList, "B".toList, "C".toList, "c1".toList], false, fun s t => .ok (s 0 t + s 2 t / 2)⟩,
   ⟨"C".toList, ["B".toList, "C".toList], false, fun s t => .ok (s 1 t)⟩, ⟨"D".toList, ["C".toList, "D".toList], false, fun s t => .ok (s 2 t)⟩]

example : calculate [("OTHER".toList, "y".toList)] 5 "_PRE".toList "_INT".toList "_POST".toList exQs =
    .ok (some [("OTHER".toList, "y".toList), ("_INT".toList, "B;C".toList), ("_POST".toList, "D".toList), ("_PRE".toList, "A".toList)]) := by decide +kernel

theorem exQs_named : Named exQs := by
  refine ⟨by decide +kernel, fun q hq => ?_⟩
  simp only [exQs, List.mem_cons, List.not_mem_nil, or_false] at hq
  rcases hq with rfl | rfl | rfl | rfl <;> exact ⟨by decide +kernel, by decide, by decide, by decide⟩

example : ∃ st', calculate [] 5 "_PRE".toList "_INT".toList "_POST".toList exQs = .ok (some st') ∧ ∃ N, ∀ fuel, N ≤ fuel →
    ∀ (A : Flo Rat) (o : SimOpts Rat) (nb : Nat) (dbv : List Name) (scl : Name → Bool) (t : Int) (n : Nat) (s : Sim.Store Rat),
    reportSimulate A o nb dbv scl st' fuel "_PRE".toList "_INT".toList "_POST".toList exQs t n s = simulate A o .both 5 nb dbv scl exQs t n s :=
  C71_same [] 5 ⟨by decide, by decide, by decide⟩ ⟨by decide, by decide, by decide⟩ ⟨by decide, by decide, by decide⟩ (by decide) (by decide) (by decide)
    ⟨by decide, by decide⟩ ⟨by decide, by decide⟩ ⟨by decide, by decide⟩ (by simp [exQs]) exQs_named (by decide) (List.Sublist.refl _) (by decide +kernel)

/-- The simulation of the example solves the model. -/
example : (match reportSimulate ratFlo ⟨mkRat 1 100, 1, 100, .tm1, newtonDefault, fun _ => 0⟩ 3 ["A".toList, "B".toList, "C".toList, "D".toList, "X".toList] (fun _ => true)
    [("_INT".toList, "B;C".toList), ("_POST".toList, "D".toList), ("_PRE".toList, "A".toList)] 5 "_PRE".toList "_INT".toList "_POST".toList exQs 1 1
    (fun v _ => if v = 4 then 0 else 1) with | .ok (some r) => r.1 | _ => false) = true := by decide +kernel

/-- Without the scalar `c1` the example is refused. -/
example (A : Flo Rat) (o : SimOpts Rat) (s : Sim.Store Rat) :
    simulate A o .both 5 3 ["A".toList, "B".toList, "C".toList, "D".toList, "X".toList] (fun _ => false) exQs 1 1 s = .ok none :=
  C71_missing A o .both 5 3 _ _ 1 1 s (q := ⟨"B".toList, ["A".toList, "B".toList, "C".toList, "c1".toList], false, fun s t => .ok (s 0 t + s 2 t / 2)⟩)
    (by simp [exQs]) (.inr ⟨"c1".toList, by simp, fun _ => rfl, fun h => absurd h (by decide)⟩)

/-! ## Where it goes wrong -/

/-- A list of the user whose name starts like one of the three is lost; if the name of the prolog starts with that of the block, the prolog is lost. -/
theorem C71_names_counterexample :
    calculate [("_PREVIOUS".toList, "x".toList)] 5 "_PRE".toList "_INT".toList "_POST".toList exQs =
      .ok (some [("_INT".toList, "B;C".toList), ("_POST".toList, "D".toList), ("_PRE".toList, "A".toList)]) ∧
    calculate [] 5 "L_PRE".toList "L".toList "M".toList exQs = .ok (some [("L".toList, "B;C".toList), ("M".toList, "D".toList)]) := by
  constructor <;> decide +kernel

/-- An equation that is in a list but not in the workspace any more is used as equation -1. -/
theorem C71_stale_counterexample (A : Flo Rat) (o : SimOpts Rat) (t : Int) (n : Nat) (s : Sim.Store Rat) :
    reportSimulate A o 3 ["A".toList, "B".toList, "C".toList, "D".toList, "X".toList] (fun _ => true)
      [("_INT".toList, "B;C".toList), ("_POST".toList, "D".toList), ("_PRE".toList, "A".toList)] 5 "_PRE".toList "_INT".toList "_POST".toList (exQs.take 3) t n s = .ub := by
  rfl

end Iode.Scc
