import Verif.Model.Scc
import Verif.Props.C21
import Verif.Props.C32
import Verif.Lemmas.PrintfText
import Mathlib.Data.List.Nodup
import Mathlib.Data.List.GetD
import Mathlib.Data.List.Induction

/-!
# Lemmas for C71
-/
namespace Iode.Scc

open Iode.Sim Iode.Lec

/-! ## The equation that solves a variable -/

theorem foldl_set_length (owns : List Nat) : ∀ (is : List Nat) (r : List (Option Nat)),
    (is.foldl (fun r i => r.set (owns.getD i 0) (some i)) r).length = r.length := by
  intro is
  induction is with
  | nil => intro r; rfl
  | cons i is ih => intro r; rw [List.foldl_cons, ih, List.length_set]

/-- The last equation of `is` that solves `p`, otherwise what was there. -/
theorem foldl_set_get (owns : List Nat) (p : Nat) : ∀ (is : List Nat) (r : List (Option Nat)), p < r.length →
    (is.foldl (fun r i => r.set (owns.getD i 0) (some i)) r)[p]? = some (match is.reverse.find? (fun i => owns.getD i 0 == p) with | some i => some i | none => r.getD p none) := by
  intro is
  induction is using List.reverseRecOn with
  | nil => intro r h; simp [h]
  | append_singleton is i ih =>
    intro r h
    rw [List.foldl_append, List.foldl_cons, List.foldl_nil, List.getElem?_set]
    rw [List.reverse_append, List.reverse_cons, List.reverse_nil, List.nil_append, List.singleton_append, List.find?_cons]
    by_cases e : owns.getD i 0 = p
    · rw [if_pos e, if_pos (by rw [foldl_set_length, e]; exact h)]
      simp only [e, beq_self_eq_true]
    · rw [if_neg e, ih r h]
      have : (owns.getD i 0 == p) = false := by simpa using e
      rw [this]

theorem eqOf_link {nv : Nat} {owns : List Nat} (hd : owns.Nodup) {p : Nat} (hp : p < nv) :
    (Endo.link nv owns).eqOf p = if p ∈ owns then some (owns.idxOf p) else none := by
  have key : ∀ i, i < owns.length → (owns.getD i 0 = p ↔ i = owns.idxOf p ∧ p ∈ owns) := by
    intro i hi
    rw [List.getD_eq_getElem _ _ hi]
    constructor
    · intro e
      subst e
      exact ⟨(List.Nodup.idxOf_getElem hd i hi).symm, List.getElem_mem hi⟩
    · rintro ⟨e, hm⟩
      subst e
      exact List.getElem_idxOf hi
  unfold Endo.eqOf
  by_cases h1 : (Endo.link nv owns).posxk[p]? = some p
  · rw [if_pos h1]
    have h2 : owns[p]? = some p := h1
    obtain ⟨hl, he⟩ := List.getElem?_eq_some_iff.mp h2
    have hk := (key p hl).mp (by rw [List.getD_eq_getElem _ _ hl]; exact he)
    rw [if_pos hk.2, ← hk.1]
  · rw [if_neg h1, List.getD_eq_getElem?_getD]
    show ((List.range owns.length).foldl (fun r i => r.set (owns.getD i 0) (some i)) (List.replicate nv none))[p]?.getD none = _
    rw [foldl_set_get owns p _ _ (by simpa using hp), Option.getD_some]
    split
    · rename_i i hf
      have h3 := List.find?_some hf
      have h4 : i < owns.length := by simpa using List.mem_of_find?_eq_some hf
      have hk := (key i h4).mp (by simpa using h3)
      rw [if_pos hk.2, ← hk.1]
    · rename_i hf
      have h3 : p ∉ owns := by
        intro hm
        have hl := List.idxOf_lt_length_iff.mpr hm
        have := List.find?_eq_none.mp hf (owns.idxOf p) (by simpa using hl)
        exact this (by simpa using (key _ hl).mpr ⟨rfl, hm⟩)
      rw [if_neg h3]
      simp [hp]

theorem eqOf_own {n p : Nat} : (own n).eqOf p = if p < n then some p else none := by
  unfold Endo.eqOf own
  by_cases h : p < n
  · rw [if_pos (by simp [h]), if_pos h]
  · rw [if_neg (by simp [h]), if_neg h]
    simp [h]

theorem predOf_eq {e : Endo} {i p : Nat} (h : e.posxk[i]? = some p → e.eqOf p = some i) :
    predOf e i p = if e.eqOf p = some i then none else e.eqOf p := by
  unfold predOf
  by_cases h1 : e.posxk[i]? = some p
  · rw [if_pos h1, if_pos (h h1)]
  · rw [if_neg h1]

/-! ## The order -/

theorem idxOf_map_inj {α β : Type} [BEq α] [LawfulBEq α] [BEq β] [LawfulBEq β] {f : α → β} : ∀ {l : List α} {x : α}, (∀ a ∈ l, f a = f x → a = x) →
    (l.map f).idxOf (f x) = l.idxOf x := by
  intro l
  induction l with
  | nil => intro x _; rfl
  | cons a l ih =>
    intro x h
    rw [List.map_cons, List.idxOf_cons, List.idxOf_cons, ih fun b hb => h b (.tail _ hb)]
    by_cases e : a = x
    · subst e; simp
    · have : f a ≠ f x := fun he => e (h a (.head _) he)
      rw [beq_eq_false_iff_ne.mpr e, beq_eq_false_iff_ne.mpr this]

theorem idxOf_inj {l : List Name} {x y : Name} (hx : x ∈ l) (h : l.idxOf x = l.idxOf y) : x = y := by
  have h1 := List.idxOf_lt_length_iff.mpr hx
  have h2 := List.getElem_idxOf h1
  have h1' : l.idxOf y < l.length := h ▸ h1
  have h3 := List.getElem_idxOf h1'
  rw [← h2, ← h3]
  simp only [h]

theorem pred_same {dbv names : List Name} (hn : names.Nodup) (hs : ∀ x ∈ names, x ∈ dbv) {i : Nat} (hi : i < names.length) {x : Name}
    (hx : x ∈ dbv) : predOf (.link dbv.length (names.map fun a => dbv.idxOf a)) i (dbv.idxOf x) = predOf (own names.length) i (names.idxOf x) := by
  have hnd : (names.map fun a => dbv.idxOf a).Nodup := by
    refine List.Nodup.map_on ?_ hn
    intro a ha b _ e
    exact idxOf_inj (hs a ha) e
  have e1 : (Endo.link dbv.length (names.map fun a => dbv.idxOf a)).eqOf (dbv.idxOf x) = if x ∈ names then some (names.idxOf x) else none := by
    rw [eqOf_link hnd (List.idxOf_lt_length_iff.mpr hx), idxOf_map_inj (f := fun a => dbv.idxOf a) (x := x) fun a ha e => idxOf_inj (hs a ha) e]
    by_cases h : x ∈ names
    · rw [if_pos h, if_pos (List.mem_map.mpr ⟨x, h, rfl⟩)]
    · rw [if_neg h, if_neg]
      intro hm
      obtain ⟨a, ha, e⟩ := List.mem_map.mp hm
      exact h (idxOf_inj (hs a ha) e ▸ ha)
  have e2 : (own names.length).eqOf (names.idxOf x) = if x ∈ names then some (names.idxOf x) else none := by
    rw [eqOf_own]
    by_cases h : x ∈ names
    · rw [if_pos h, if_pos (List.idxOf_lt_length_iff.mpr h)]
    · rw [if_neg h, if_neg (fun hl => h (List.idxOf_lt_length_iff.mp hl))]
  rw [predOf_eq, predOf_eq, e1, e2]
  · intro h
    have : (List.range names.length)[i]? = some (names.idxOf x) := h
    rw [List.getElem?_range hi, Option.some.injEq] at this
    rw [e2, if_pos (List.idxOf_lt_length_iff.mp (this ▸ hi)), this]
  · intro h
    have : (names.map fun a => dbv.idxOf a)[i]? = some (dbv.idxOf x) := h
    rw [List.getElem?_map, List.getElem?_eq_getElem hi, Option.map_some, Option.some.injEq] at this
    have hx' := idxOf_inj (hs _ (List.getElem_mem hi)) this
    rw [e1, ← hx', if_pos (List.getElem_mem hi), List.Nodup.idxOf_getElem hn i hi]

/-- The positions in the variables of the names of a formula. -/
def linked (dbv objs : List Name) : List (Option Nat) := objs.map fun x => if isCoef x then none else some (dbv.idxOf x)

theorem named_same {dbv names : List Name} (hn : names.Nodup) (hs : ∀ x ∈ names, x ∈ dbv) {i : Nat} (hi : i < names.length) : ∀ {objs : List Name},
    (∀ x ∈ objs, isCoef x = false → x ∈ dbv) →
    namedPreds (.link dbv.length (names.map fun a => dbv.idxOf a)) i (linked dbv objs) = namedPreds (own names.length) i (pseudo names objs) := by
  intro objs
  induction objs with
  | nil => intro _; rfl
  | cons x objs ih =>
    intro h
    have ih := ih fun y hy => h y (.tail _ hy)
    unfold namedPreds linked pseudo at ih ⊢
    cases hx : isCoef x with
    | true => simpa [hx] using ih
    | false =>
      simp only [List.map_cons, hx, Bool.false_eq_true, if_false, List.filterMap_cons, id_eq]
      rw [pred_same hn hs hi (h x (.head _) hx)]
      exact congrArg _ ih

theorem coefs_same (dbv names objs : List Name) : ((linked dbv objs).filter (· = none)).length = ((pseudo names objs).filter (· = none)).length := by
  induction objs with
  | nil => rfl
  | cons x objs ih =>
    unfold linked pseudo at ih ⊢
    cases hx : isCoef x <;> simpa [hx] using ih

theorem mapIdx_congr' {α β γ : Type} {f : Nat → α → γ} {g : Nat → β → γ} : ∀ {l : List α} {m : List β}, l.length = m.length →
    (∀ i (h : i < l.length) (h' : i < m.length), f i l[i] = g i m[i]) → l.mapIdx f = m.mapIdx g := by
  intro l m hl h
  apply List.ext_getElem
  · simpa using hl
  · intro i h1 h2
    simp only [List.length_mapIdx] at h1 h2
    rw [List.getElem_mapIdx, List.getElem_mapIdx]
    exact h i h1 h2

/-- The order found without the variables is the one found with them. -/
theorem order_same {dbv names : List Name} (hn : names.Nodup) (hs : ∀ x ∈ names, x ∈ dbv) {objs : List (List Name)} (hl : objs.length = names.length)
    (ho : ∀ l ∈ objs, ∀ x ∈ l, isCoef x = false → x ∈ dbv) {sort : SortBy} (hsort : sort ≠ .none) (passes : Nat) :
    order sort passes (.link dbv.length (names.map fun a => dbv.idxOf a)) (objs.map (linked dbv)) [] =
      order sort passes (own names.length) (objs.map (pseudo names)) [] := by
  have hnm : ∀ i (h : i < objs.length), namedPreds (.link dbv.length (names.map fun a => dbv.idxOf a)) i (linked dbv objs[i]) =
      namedPreds (own names.length) i (pseudo names objs[i]) := fun i h => named_same hn hs (hl ▸ h) (ho _ (List.getElem_mem h))
  have h1 : allPreds (.link dbv.length (names.map fun a => dbv.idxOf a)) (objs.map (linked dbv)) = allPreds (own names.length) (objs.map (pseudo names)) := by
    unfold allPreds
    refine mapIdx_congr' (by simp) fun i h h' => ?_
    simp only [List.length_map] at h h'
    rw [List.getElem_map, List.getElem_map]
    unfold predsOf
    rw [hnm i h, coefs_same dbv names]
  have h2 : allSuccs (.link dbv.length (names.map fun a => dbv.idxOf a)) (objs.map (linked dbv)) = allSuccs (own names.length) (objs.map (pseudo names)) := by
    unfold allSuccs
    refine mapIdx_congr' (by simp) fun j _ _ => ?_
    congr 1
    refine mapIdx_congr' (by simp) fun i h h' => ?_
    simp only [List.length_map] at h h'
    rw [List.getElem_map, List.getElem_map, hnm i h]
  have h3 : decompose (.link dbv.length (names.map fun a => dbv.idxOf a)) (objs.map (linked dbv)) = decompose (own names.length) (objs.map (pseudo names)) := by
    unfold decompose
    rw [h1, h2, List.length_map, List.length_map]
  cases sort with
  | none => exact absurd rfl hsort
  | connex => simp only [order, h3]
  | both => simp only [order, h1, h3, List.length_map]

/-! ## The lists -/

open Iode.Lists (Ident GoodWord)

theorem tail_plain {c : Char} (h : nameTailOk .comments c = true) :
    c ≠ '\\' ∧ c ≠ '?' ∧ c ≠ '@' ∧ c ≠ '&' ∧ c ≠ '!' ∧ c ≠ '|' ∧ c ≠ '*' ∧ c ≠ '"' := by
  refine ⟨?_, ?_, ?_, ?_, ?_, ?_, ?_, ?_⟩ <;> (rintro rfl; revert h; decide)

theorem grep_prefix : ∀ (name : Name), (∀ c ∈ name, nameTailOk .comments c = true) → ∀ (s : Name) (j nbeg : Nat),
    Grep.grep1 Grep.noCase '*' (name ++ ['*']) s j nbeg = .ok ((toUpper name).isPrefixOf (toUpper s)) := by
  intro name
  induction name with
  | nil =>
    intro _ s j nbeg
    rw [List.nil_append, Grep.grep1.eq_def]
    simp [toUpper]
  | cons c name ih =>
    intro h s j nbeg
    obtain ⟨h1, h2, h3, h4, h5, h6, h7, -⟩ := tail_plain (h c (.head _))
    rw [List.cons_append, Grep.grep1.eq_def]
    simp only [if_neg h1, if_neg h2, if_neg h3, if_neg h4, if_neg h5, if_neg h6, if_neg h7]
    cases s with
    | nil => simp [toUpper]
    | cons d s =>
      simp only [toUpper, List.map_cons, List.isPrefixOf]
      by_cases e : Grep.noCase.up d = Grep.noCase.up c
      · rw [if_pos e, ih (fun x hx => h x (.tail _ hx))]
        have e' : (toUpperC c == toUpperC d) = true := by simpa [Grep.noCase] using e.symm
        rw [e', Bool.true_and]
        rfl
      · rw [if_neg e]
        have e' : (toUpperC c == toUpperC d) = false := by
          rw [beq_eq_false_iff_ne]
          exact fun h => e h.symm
        rw [e', Bool.false_and]

theorem grepLoop_prefix {name : Name} (h : ∀ c ∈ name, nameTailOk .comments c = true) : ∀ (ks : List Name),
    Grep.grepLoop Grep.noCase '*' (name ++ ['*']) ks = .ok (ks.filter fun k => (toUpper name).isPrefixOf (toUpper k)) := by
  intro ks
  induction ks with
  | nil => rfl
  | cons k ks ih =>
    rw [Grep.grepLoop, ih, Grep.grep, grep_prefix name h]
    simp only [Res.bind, List.filter_cons]

theorem expand_prefix {name : Name} (h : Ident name) (ks : List Name) :
    Grep.expandOne Grep.noCase '*' ks (name ++ ['*']) = .ok (ks.filter fun k => (toUpper name).isPrefixOf (toUpper k)) := by
  obtain ⟨h0, h1, h2⟩ := h
  cases name with
  | nil => exact absurd rfl h0
  | cons c name =>
    have hq := (tail_plain (h1 c (.head _))).2.2.2.2.2.2.2
    rw [List.cons_append, Grep.expandOne]
    rw [if_pos ⟨hq, .inl (by simp)⟩, Grep.grepNames, if_neg (by simp)]
    rw [← List.cons_append]
    exact grepLoop_prefix h1 ks

theorem find_foldl_erase {V : Type} (k : Name) : ∀ (l : List Name) (st : SMap V), (l.foldl (fun s k => s.erase k) st).find k = if k ∈ l then none else st.find k := by
  intro l
  induction l with
  | nil => intro st; simp
  | cons a l ih =>
    intro st
    rw [List.foldl_cons, ih, SMap.find_erase]
    by_cases h : k ∈ l
    · rw [if_pos h, if_pos (List.mem_cons_of_mem _ h)]
    · rw [if_neg h]
      by_cases e : k = a
      · subst e; simp
      · rw [if_neg (c := k ∈ a :: l) (by simp [h, e])]
        simp [e, Ne.symm e]

/-- The removed lists are those whose names start like `name`. -/
theorem dropLists_spec (st : Lists.Store) {name : Name} (h : Ident name) (hl : name.length ≤ 15) :
    ∃ st', dropLists st name = .ok st' ∧ ∀ k, st'.find k = if toUpper name <+: toUpper k then none else st.find k := by
  refine ⟨(st.keys.filter fun k => (toUpper name).isPrefixOf (toUpper k)).foldl (fun s k => s.erase k) st, ?_, ?_⟩
  · unfold dropLists
    rw [if_neg (by omega), expand_prefix h]
    rfl
  · intro k
    rw [find_foldl_erase]
    by_cases hp : toUpper name <+: toUpper k
    · rw [if_pos hp]
      by_cases hk : k ∈ st.keys
      · rw [if_pos]
        exact List.mem_filter.mpr ⟨hk, by simpa using hp⟩
      · rw [if_neg (fun hm => hk (List.mem_filter.mp hm).1)]
        cases hf : st.find k with
        | none => rfl
        | some v => exact absurd ((SMap.mem_keys_iff k st).mpr ⟨v, hf⟩) hk
    · rw [if_neg hp, if_neg]
      intro hm
      exact hp (by simpa using (List.mem_filter.mp hm).2)

/-- A list stands under a name, possibly in parts whose names start with it. -/
def Holds (st : Lists.Store) (name : Name) (lst : List Name) : Prop :=
  ∃ content, st.find (toKey .lists name) = some content ∧ (content = [] ↔ lst = []) ∧
    ∀ st2 : Lists.Store, (∀ k, toUpper name <+: k → st2.find k = st.find k) → ∃ N, ∀ n, N ≤ n → Lists.expand st2 n content = .ok (Lists.table lst)

theorem Holds.frame {st st2 : Lists.Store} {name : Name} {lst : List Name} (hid : Ident name) (h : Holds st name lst)
    (hf : ∀ k, toUpper name <+: k → st2.find k = st.find k) : Holds st2 name lst := by
  obtain ⟨c, h1, h2, h3⟩ := h
  refine ⟨c, ?_, h2, fun st3 h4 => h3 st3 fun k hk => (h4 k hk).trans (hf k hk)⟩
  rw [hf _ (by rw [hid.key]), h1]

theorem sub_prefix {name : Name} (hid : Ident name) (j : Nat) : toUpper name <+: toKey .lists (name ++ natToChars j) := by
  rw [(hid.sub j).key]
  unfold toUpper
  rw [List.map_append]
  exact List.prefix_append _ _

theorem digits_le {j : Nat} (h : j < 1000) : (natToChars j).length ≤ 3 :=
  Printf.natToChars_length (k := 3) (by omega) h

theorem split_holds (st : Lists.Store) {name : Name} (hid : Ident name) (hl : name.length ≤ 15) {lst : List Name} (hg : ∀ w ∈ lst, GoodWord w)
    (hn : lst.length ≤ 1000000) : ∃ st', Lists.split st name lst 1000 = .ok ⟨st', true⟩ ∧ Holds st' name lst ∧
      ∀ k, ¬ toUpper name <+: k → st'.find k = st.find k := by
  have hput : ∀ (s : Lists.Store) (c : List Char), Lists.put s name c = some (s.insert (toKey .lists name) c) := by
    intro s c
    rw [Lists.put, if_pos (hid.valid (by omega))]
  have hne : ∀ {k : Name}, ¬ toUpper name <+: k → k ≠ toKey .lists name := by
    rintro k hk rfl
    exact hk (by rw [hid.key])
  by_cases h0 : lst = []
  · subst h0
    refine ⟨st.insert (toKey .lists name) [], ?_, ⟨[], by simp, by simp, ?_⟩, ?_⟩
    · rw [Lists.split, if_pos (by rfl), Lists.setOut, hput]
    · intro st2 _
      refine ⟨1, fun n hn => ?_⟩
      obtain ⟨n, rfl⟩ : ∃ m, n = m + 1 := ⟨n - 1, by omega⟩
      rfl
    · intro k hk
      rw [SMap.find_insert, if_neg (hne hk)]
  have hl0 : lst.length ≠ 0 := fun h => h0 (List.length_eq_zero_iff.mp h)
  by_cases h1 : lst.length < 1000
  · refine ⟨st.insert (toKey .lists name) (Lists.join lst), ?_, ⟨Lists.join lst, by simp, ?_, ?_⟩, ?_⟩
    · rw [Lists.split, if_neg hl0, if_pos (by omega), Lists.setOut, hput]
    · refine ⟨fun e => ?_, fun e => absurd e h0⟩
      have := Lists.words_join hg
      rw [e] at this
      exact this.symm
    · intro st2 _
      apply Lists.C21_expand_total
      rw [Lists.words_join hg]
      exact Lists.tame_plain fun w hw => (hg w hw).plain
    · intro k hk
      rw [SMap.find_insert, if_neg (hne hk)]
  · have hidx : ∀ i, i < (Lists.chunks 1000 lst.length lst).length → (name ++ natToChars (0 + i)).length ≤ 18 := by
      intro i hi
      have := Lists.chunks_index (c := 1000) (by omega) _ _ i hi
      have := digits_le (j := i) (by omega)
      rw [Nat.zero_add, List.length_append]
      omega
    obtain ⟨st1, h2, hin, hout⟩ := Lists.subLoop_spec hid (c := 1000) lst.length 0 lst st (fun i hi => by have := hidx i hi; omega)
    obtain ⟨s, hs, hw⟩ := Lists.refs_spec hid (Lists.chunks 1000 lst.length lst).length 0 hidx
    have hflat := Lists.chunks_flatten (c := 1000) (by omega) lst.length lst (Nat.le_refl _)
    refine ⟨st1.insert (toKey .lists name) s, ?_, ⟨s, by simp, ?_, ?_⟩, ?_⟩
    · rw [Lists.split, if_neg hl0, if_neg (by omega), if_neg (by omega)]
      show (Lists.subLoop name 1000 lst.length 0 lst st).bind _ = _
      rw [h2]
      simp only [Res.bind, if_true, Nat.zero_add, hs, Lists.setOut, hput]
    · refine ⟨fun e => ?_, fun e => absurd e h0⟩
      rw [e] at hw
      have : Lists.chunks 1000 lst.length lst = [] := by
        cases hc : Lists.chunks 1000 lst.length lst with
        | nil => rfl
        | cons a as => rw [hc] at hw; cases hw
      rw [← hflat, this]
      rfl
    · intro st2 h2
      apply Lists.C21_expand_total
      obtain ⟨ht, -⟩ := Lists.tame_refs (st := st2) (name := name) (Lists.chunks 1000 lst.length lst) 0
        (fun i hi => by
          rw [h2 _ (sub_prefix hid _), SMap.find_insert, if_neg (Lists.subKey_ne hid (0 + i))]
          exact hin i hi)
        (fun x hx => ⟨Lists.chunks_ne (by omega) _ _ x hx, fun w hw => hg w (by
          rw [← hflat]; exact List.mem_flatten.mpr ⟨x, hx, hw⟩)⟩)
        (Lists.chunks_spaced (by omega) _ _ (.inr (by omega)))
      rw [hflat] at ht
      rw [hw]
      exact ht
    · intro k hk
      rw [SMap.find_insert, if_neg (hne hk)]
      exact hout k fun i _ e => hk (e ▸ sub_prefix hid i)

theorem writeBlock_spec (st : Lists.Store) {name : Name} (hid : Ident name) (hl : name.length ≤ 15) {lst : List Name} (hg : ∀ w ∈ lst, GoodWord w)
    (hn : lst.length ≤ 1000000) : ∃ st', writeBlock st name lst = .ok st' ∧ Holds st' name lst ∧
      ∀ k, ¬ toUpper name <+: k → st'.find k = if toUpper name <+: toUpper k then none else st.find k := by
  obtain ⟨s1, h1, h2⟩ := dropLists_spec st hid hl
  obtain ⟨s2, h3, h4, h5⟩ := split_holds s1 hid hl hg hn
  refine ⟨s2, ?_, h4, ?_⟩
  · rw [writeBlock, h1]
    simp only [Res.bind, h3]
  · intro k hk
    rw [h5 k hk, h2 k]

end Iode.Scc
