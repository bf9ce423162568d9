import Verif.Props.C14
import Verif.Props.C13

/-!
# C15  Extrapolation only fills the gaps it is allowed to fill

Specification: `Keeps` (which values a method must not touch) and `filled` (the value a method gives from the two
preceding values of the *resulting* series, `none` when there is no such period or it is NA).
-/
namespace Iode
open VWorld World

section
variable {F : Type} [Field F]

/-- The method must leave the value alone. -/
def InitMethod.Keeps (isZero : F → Bool) (m : InitMethod) (cur : Option F) : Prop :=
  match m with
  | .asis => True
  | .tm1NA | .extraNA => ∃ x, cur = some x
  | .tm1 | .extra => ∃ x, cur = some x ∧ isZero x = false
  | .tm1A | .extraA => False

/-- The value given by the method: the preceding value, or the line through the two preceding values; 1 at worst. -/
def InitMethod.filled (m : InitMethod) (prev1 prev2 : Option F) : F :=
  match prev1 with
  | none => 1
  | some a =>
    match m with
    | .tm1 | .tm1A | .tm1NA => a
    | _ => match prev2 with
      | none => a
      | some b => a + (a - b)

/-- The value at a position before `t`, `none` when NA or before the first period. -/
def before (y : List (Option F)) (t d : Nat) : Option F := if d ≤ t then (y[t - d]?).join else none

theorem skips_iff (isZero : F → Bool) (m : InitMethod) (cur : Option F) : m.skips isZero cur = true ↔ m.Keeps isZero cur := by
  cases m <;> cases cur <;> simp [InitMethod.skips, InitMethod.Keeps]

theorem calc1_eq (x : List (Option F)) (t : Nat) (m : InitMethod) (hm : m = .tm1 ∨ m = .tm1A ∨ m = .tm1NA) :
    calc1 x t = some (m.filled (before x t 1) (before x t 2)) := by
  unfold calc1 before InitMethod.filled
  by_cases ht : t > 0
  · rw [if_pos ht, if_pos (show 1 ≤ t by omega)]
    cases hx : x[t - 1]? with
    | none => simp
    | some o =>
      cases o with
      | none => simp
      | some a => rcases hm with hm | hm | hm <;> subst hm <;> simp
  · rw [if_neg ht, if_neg (show ¬ 1 ≤ t by omega)]

theorem calc2_eq (x : List (Option F)) (t : Nat) (m : InitMethod) (hm : m = .extra ∨ m = .extraA ∨ m = .extraNA) :
    calc2 x t = some (m.filled (before x t 1) (before x t 2)) := by
  unfold calc2 before InitMethod.filled
  by_cases ht : t > 0
  · rw [if_pos ht, if_pos (show 1 ≤ t by omega)]
    cases hx : x[t - 1]? with
    | none => simp
    | some o =>
      cases o with
      | none => simp
      | some a =>
        simp only [Option.join_some]
        by_cases h2 : t > 1
        · rw [if_pos h2, if_pos (show 2 ≤ t by omega)]
          cases hy : x[t - 2]? with
          | none => rcases hm with hm | hm | hm <;> subst hm <;> simp
          | some o2 =>
            cases o2 with
            | none => rcases hm with hm | hm | hm <;> subst hm <;> simp
            | some b =>
              have : 2 * a - b = a + (a - b) := by ring
              rcases hm with hm | hm | hm <;> subst hm <;> simp [this]
        · rw [if_neg h2, if_neg (show ¬ 2 ≤ t by omega)]
          rcases hm with hm | hm | hm <;> subst hm <;> simp
  · rw [if_neg ht, if_neg (show ¬ 1 ≤ t by omega)]

open Classical in
/-- `y` is `x` extrapolated at the positions `bt, …, bt + n - 1`. -/
def Extrapolated (isZero : F → Bool) (m : InitMethod) (bt n : Nat) (x y : List (Option F)) : Prop :=
  y.length = x.length ∧
  (∀ t, t < bt ∨ bt + n ≤ t → y[t]? = x[t]?) ∧
  ∀ t cur, bt ≤ t → t < bt + n → x[t]? = some cur →
    y[t]? = some (if m.Keeps isZero cur then cur else some (m.filled (before y t 1) (before y t 2)))

open Classical in
theorem initValue_spec (isZero : F → Bool) (m : InitMethod) (x : List (Option F)) (t : Nat) {cur : Option F}
    (hx : x[t]? = some cur) :
    initValue isZero m x t =
      .ok (x.set t (if m.Keeps isZero cur then cur else some (m.filled (before x t 1) (before x t 2)))) := by
  unfold initValue
  rw [hx]
  simp only
  by_cases hk : m.Keeps isZero cur
  · rw [if_pos ((skips_iff isZero m cur).2 hk), if_pos hk]
    obtain ⟨hl, he⟩ := List.getElem?_eq_some_iff.1 hx
    rw [← he, List.set_getElem_self]
  · rw [if_neg (fun hc => hk ((skips_iff isZero m cur).1 hc)), if_neg hk]
    cases m with
    | tm1 => simp only; rw [calc1_eq x t .tm1 (by simp)]
    | tm1A => simp only; rw [calc1_eq x t .tm1A (by simp)]
    | tm1NA => simp only; rw [calc1_eq x t .tm1NA (by simp)]
    | extra => simp only; rw [calc2_eq x t .extra (by simp)]
    | extraA => simp only; rw [calc2_eq x t .extraA (by simp)]
    | extraNA => simp only; rw [calc2_eq x t .extraNA (by simp)]
    | asis => exact absurd trivial hk

theorem before_congr {x y : List (Option F)} {t d : Nat} (h : ∀ s, s < t → y[s]? = x[s]?) (hd : 0 < d) :
    before y t d = before x t d := by
  unfold before
  split
  · rw [h _ (by omega)]
  · rfl

open Classical in
theorem initLoop_spec (isZero : F → Bool) (m : InitMethod) (n : Nat) : ∀ (x : List (Option F)) (bt : Nat),
    bt + n ≤ x.length → ∃ y, initLoop isZero m x bt n = .ok y ∧ Extrapolated isZero m bt n x y := by
  induction n with
  | zero =>
    intro x bt _
    exact ⟨x, rfl, rfl, fun _ _ => rfl, fun t cur h1 h2 _ => absurd h2 (by omega)⟩
  | succ n ih =>
    intro x bt hb
    have hx : x[bt]? = some (x[bt]'(by omega)) := List.getElem?_eq_getElem _
    generalize x[bt]'(by omega) = cur at hx
    simp only [initLoop, initValue_spec isZero m x bt hx]
    generalize hz : (if m.Keeps isZero cur then cur else some (m.filled (before x bt 1) (before x bt 2))) = z
    obtain ⟨y, hy, hl, hout, hin⟩ := ih (x.set bt z) (bt + 1) (by simp; omega)
    refine ⟨y, hy, by simpa using hl, ?_, ?_⟩
    · intro t ht
      rw [hout t (by omega), List.getElem?_set_ne (by omega)]
    · intro t c h1 h2 hc
      by_cases he : t = bt
      · subst he
        rw [hx] at hc; cases hc
        rw [hout t (by omega), List.getElem?_set_self (by omega), ← hz]
        have hb : ∀ s, s < t → y[s]? = x[s]? := by
          intro s hs
          rw [hout s (by omega), List.getElem?_set_ne (by omega)]
        rw [before_congr hb (by decide), before_congr hb (by decide)]
      · exact hin t c (by omega) (by omega) (by rw [List.getElem?_set_ne (Ne.symm he)]; exact hc)

/-- The loop over the names. -/
theorem extrapolateLoop_spec (isZero : F → Bool) (m : InitMethod) {i bt n : Nat} (ks : List Name) {v : VWorld (Option F)}
    (h : Inv v) (hnd : ks.Nodup) (hks : ∀ k ∈ ks, v.w.val i k ≠ none) (hb : ((bt + n : Nat) : Int) ≤ v.nb i) :
    (v.extrapolateLoop isZero m i bt n ks).2 = .ok true ∧ Inv (v.extrapolateLoop isZero m i bt n ks).1 ∧
    (v.extrapolateLoop isZero m i bt n ks).1.smp = v.smp ∧
    (v.extrapolateLoop isZero m i bt n ks).1.w.dbs = v.w.dbs ∧
    (∀ j k, v.w.rootOf j ≠ v.w.rootOf i ∨ k ∉ ks →
      (v.extrapolateLoop isZero m i bt n ks).1.w.val j k = v.w.val j k) ∧
    (∀ k x, k ∈ ks → v.w.val i k = some x →
      ∃ y, (v.extrapolateLoop isZero m i bt n ks).1.w.val i k = some y ∧ Extrapolated isZero m bt n x y) := by
  induction ks generalizing v with
  | nil => exact ⟨rfl, h, rfl, rfl, fun _ _ _ => rfl, fun k x hk => by cases hk⟩
  | cons k ks ih =>
    obtain ⟨hnk, hnd'⟩ := List.nodup_cons.1 hnd
    cases hv : v.w.val i k with
    | none => exact absurd hv (hks k (by simp))
    | some x =>
      obtain ⟨a, hp, hf, hh⟩ := getObjPtr_of_val h.base.good.keys hv
      have hlen := val_length h hv
      obtain ⟨y, hy, hex⟩ := initLoop_spec isZero m n x bt (by omega)
      simp only [VWorld.extrapolateLoop, hp, hh, hy]
      have hinv := h.write a y (by rw [hh]; exact hex.1)
      obtain ⟨r1, r2, r3, r4, r5, r6⟩ := ih (v := { v with w := v.w.writeCore a y }) hinv hnd' (by
        intro k' hk' hc
        have hne : k' ≠ k := fun e => hnk (e ▸ hk')
        rw [show ({ v with w := v.w.writeCore a y } : VWorld (Option F)).w.val i k' = v.w.val i k' from
          write_frame h hf y i k' (Or.inr hne)] at hc
        exact hks k' (by simp [hk']) hc) hb
      refine ⟨r1, r2, r3, r4, ?_, ?_⟩
      · intro j k' hc
        rw [r5 j k' (by
          rcases hc with hc | hc
          · exact Or.inl hc
          · exact Or.inr (fun hm => hc (by simp [hm])))]
        refine write_frame h hf y j k' ?_
        rcases hc with hc | hc
        · exact Or.inl hc
        · exact Or.inr (fun e => hc (by simp [e]))
      · intro k' x' hk' hx'
        by_cases he : k' = k
        · subst he
          rw [hv] at hx'; cases hx'
          refine ⟨y, ?_, hex⟩
          rw [r5 i k' (Or.inr hnk)]
          show (v.w.writeCore a y).val i k' = _
          rw [write_val h.base.good.unshared hf, if_pos rfl]
        · have hm : k' ∈ ks := by
            rcases List.mem_cons.1 hk' with h1 | h1
            · exact absurd h1 he
            · exact h1
          exact r6 k' x' hm (by
            show (v.w.writeCore a y).val i k' = _
            rw [write_frame h hf y i k' (Or.inr he)]; exact hx')

end

/-- `a` lies inside `b`. -/
def Sample.Inside (a b : Sample) : Prop :=
  a.start.periodicity = b.start.periodicity ∧
  ∃ nb, nbPeriodsPerYear b.start.periodicity = .ok nb ∧ b.start.ord nb ≤ a.start.ord nb ∧ a.stop.ord nb ≤ b.stop.ord nb

/-- What the calls of `difference` say about two fair samples of one periodicity. -/
theorem extrapolate_bounds {s own : Sample} (hs : s.Fair) (ho : own.Fair) (hper : s.start.periodicity = own.start.periodicity)
    {nb : Int} (hnb : nbPeriodsPerYear own.start.periodicity = .ok nb) :
    s.start.difference own.start = .ok (s.start.ord nb - own.start.ord nb) ∧
    own.stop.difference s.stop = .ok (own.stop.ord nb - s.stop.ord nb) := by
  have h1 := hs.proper.same
  have h2 := ho.proper.same
  constructor
  · rw [Period.difference_spec (by rw [hper]; exact hnb) hper]
    rfl
  · rw [Period.difference_spec (by rw [h2]; exact hnb) (by rw [h2, h1, hper])]
    rfl

/-- C15. In every state a regular history reaches, for every workspace with a sample and at least one variable, every
    method, every sample and every set of names of the workspace: the call fails, and changes nothing, exactly when the
    sample is not inside that of the workspace; otherwise every selected variable keeps its values outside the sample and
    follows the method inside, and nothing else changes. Missing for the full claim: irregular histories (C11). -/
theorem C15_extrapolate_partial {F : Type} [Field F] (isZero : F → Bool) (m : InitMethod)
    (ops : List (VOp (Option F))) (hr : Regular none VWorld.init ops) (i : Nat) (own s : Sample) (hs : s.Fair)
    (hown : ((VWorld.init : VWorld (Option F)).run none ops).smp i = some own)
    (hne : (((VWorld.init : VWorld (Option F)).run none ops).w.dbs i).objs ≠ [])
    (ks : List Name) (hnd : ks.Nodup) (hks : ∀ k ∈ ks, k ∈ (((VWorld.init : VWorld (Option F)).run none ops).w.dbs i).objs.keys) :
    let v := (VWorld.init : VWorld (Option F)).run none ops
    let v' := (v.extrapolate isZero m i s ks).1
    (¬ s.Inside own → v.extrapolate isZero m i s ks = (v, .err)) ∧
    (s.Inside own → (v.extrapolate isZero m i s ks).2 = .ok true ∧ v'.smp = v.smp ∧
      (∀ j name, v.w.topOf j ≠ v.w.topOf i ∨ toKey ty name ∉ ks → v'.look j name = v.look j name) ∧
      (∀ name q, own.Contains q → ¬ s.Contains q → v'.valueAt i name q = v.valueAt i name q) ∧
      ∃ bt : Nat, s.start.difference own.start = .ok (bt : Int) ∧
        ∀ name x, toKey ty name ∈ ks → v.look i name = some x →
          ∃ y, v'.look i name = some y ∧ Extrapolated isZero m bt s.nb.toNat x y) := by
  have h := Inv.run ops (Inv.init (α := Option F)) hr
  simp only
  generalize (VWorld.init : VWorld (Option F)).run none ops = v at *
  have hof := h.fair i own hown
  have hnbi : v.nb i = own.nb := by unfold nb; rw [hown]
  by_cases hper : s.start.periodicity = own.start.periodicity
  · obtain ⟨nb, hnb, hnb1⟩ := perYear_pos hof
    obtain ⟨d1, d2⟩ := extrapolate_bounds hs hof hper hnb
    have hspo := hof.span hnb
    have hsps := hs.span (by rw [hper]; exact hnb)
    have hspos := hs.nb_pos
    by_cases hin : own.start.ord nb ≤ s.start.ord nb ∧ s.stop.ord nb ≤ own.stop.ord nb
    · have hI : s.Inside own := ⟨hper, nb, hnb, hin.1, hin.2⟩
      refine ⟨fun hc => absurd hI hc, fun _ => ?_⟩
      have he : v.extrapolate isZero m i s ks =
          v.extrapolateLoop isZero m i (s.start.ord nb - own.start.ord nb).toNat s.nb.toNat ks := by
        unfold VWorld.extrapolate
        simp only [hown, d1, d2]
        rw [if_neg (by omega), if_neg hne]
      obtain ⟨r1, r2, r3, r4, r5, r6⟩ := extrapolateLoop_spec isZero m (i := i)
        (bt := (s.start.ord nb - own.start.ord nb).toNat) (n := s.nb.toNat) ks h hnd (by
          intro k hk hc
          rw [val_none] at hc
          have := (SMap.has_iff_mem _ _).2 (hks k hk)
          rw [hc] at this; cases this) (by rw [hnbi]; omega)
      rw [he]
      have hlook : ∀ (u : VWorld (Option F)), Inv u → ∀ x name, u.look x name = u.w.val x (toKey ty name) :=
        fun u hu x name => look_eq (by decide) hu.base.good.keys x name
      have hframe : ∀ j name, v.w.topOf j ≠ v.w.topOf i ∨ toKey ty name ∉ ks →
          (v.extrapolateLoop isZero m i (s.start.ord nb - own.start.ord nb).toNat s.nb.toNat ks).1.look j name = v.look j name := by
        intro j name hc
        rw [hlook _ r2, hlook _ h]
        refine r5 j _ ?_
        rcases hc with hc | hc
        · left; intro e; apply hc
          rw [topOf_eq h.base.good.wf, topOf_eq h.base.good.wf, e]
        · exact Or.inr hc
      have hfill : ∀ name x, toKey ty name ∈ ks → v.look i name = some x →
          ∃ y, (v.extrapolateLoop isZero m i (s.start.ord nb - own.start.ord nb).toNat s.nb.toNat ks).1.look i name = some y ∧
            Extrapolated isZero m (s.start.ord nb - own.start.ord nb).toNat s.nb.toNat x y := by
        intro name x hk hx
        rw [hlook _ h] at hx
        obtain ⟨y, hy, hex⟩ := r6 _ x hk hx
        exact ⟨y, by rw [hlook _ r2]; exact hy, hex⟩
      refine ⟨r1, r3, hframe, ?_, _, ?_, hfill⟩
      · intro name q hq hnq
        by_cases hk : toKey ty name ∈ ks
        · cases hx : v.look i name with
          | none =>
            have hv0 : v.w.val i (toKey ty name) = none := by rw [← hlook _ h]; exact hx
            rw [val_none] at hv0
            have := (SMap.has_iff_mem _ _).2 (hks _ hk)
            rw [hv0] at this; cases this
          | some x =>
            obtain ⟨y, hy, hex⟩ := hfill name x hk hx
            obtain ⟨t, ht⟩ := position_of_contains hof hq
            rw [valueAt_in hown ht hx, valueAt_in (by rw [r3]; exact hown) ht hy]
            refine hex.2.1 _ ?_
            have hqper := hq.2.1
            rw [Sample.position_eq hnb hqper] at ht
            split at ht
            · cases ht
            · cases ht
              apply Decidable.byContradiction
              intro hc
              apply hnq
              refine ⟨hq.1, by rw [hqper, hper], nb, by rw [hper]; exact hnb, ?_, ?_⟩
              · unfold Period.ord at *; omega
              · unfold Period.ord at *; omega
        · unfold valueAt
          rw [r3, hframe i name (Or.inr hk)]
      · rw [d1]; congr 1; omega
    · have hI : ¬ s.Inside own := by
        rintro ⟨-, nb', hnb', a, b⟩
        rw [hnb] at hnb'; cases hnb'
        exact hin ⟨a, b⟩
      refine ⟨fun _ => ?_, fun hc => absurd hc hI⟩
      unfold VWorld.extrapolate
      simp only [hown, d1, d2]
      rw [if_pos (by omega)]
  · have hI : ¬ s.Inside own := fun hc => hper hc.1
    refine ⟨fun _ => ?_, fun hc => absurd hc hI⟩
    have : s.start.difference own.start = .err := by unfold Period.difference; rw [if_pos hper]
    have hub : own.stop.difference s.stop ≠ .ub := by
      have h1 := hs.proper.same
      have h2 := hof.proper.same
      unfold Period.difference
      rw [if_pos (by rw [h1, h2]; exact fun e => hper e.symm)]; simp
    unfold VWorld.extrapolate
    simp only [hown, this]

/-- C15. The methods for missing values never change a number, inside the sample or outside. -/
theorem C15_numbers_kept {F : Type} [Field F] (isZero : F → Bool) (m : InitMethod) (hm : m = .tm1NA ∨ m = .extraNA ∨ m = .asis)
    (bt n : Nat) (x y : List (Option F)) (h : Extrapolated isZero m bt n x y) (t : Nat) (a : F)
    (ha : x[t]? = some (some a)) : y[t]? = some (some a) := by
  by_cases hin : bt ≤ t ∧ t < bt + n
  · rw [h.2.2 t _ hin.1 hin.2 ha, if_pos]
    rcases hm with hm | hm | hm <;> subst hm
    · exact ⟨a, rfl⟩
    · exact ⟨a, rfl⟩
    · trivial
  · rw [h.2.1 t (by omega), ha]

/-! ### Example -/

example :
    let v := (VWorld.init : VWorld (Option Rat)).run none modesHistory
    (v.extrapolate (· == 0) .extraNA 0 ⟨⟨2001, 2, 'Q'⟩, ⟨2001, 3, 'Q'⟩, 2⟩ ["A".toList]).1.look 0 "A".toList =
      some [some 1, some 2, some 4, some 8, some 16, some 24, some 0, some 5] ∧
    (v.extrapolate (· == 0) .extra 0 ⟨⟨2001, 2, 'Q'⟩, ⟨2001, 3, 'Q'⟩, 2⟩ ["A".toList]).1.look 0 "A".toList =
      some [some 1, some 2, some 4, some 8, some 16, some 24, some 32, some 5] ∧
    (v.extrapolate (· == 0) .extra 0 ⟨⟨1999, 2, 'Q'⟩, ⟨2001, 3, 'Q'⟩, 10⟩ ["A".toList]).2 = .err := by decide +kernel

end Iode
