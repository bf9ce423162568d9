import Verif.Props.C12
import Verif.Props.C01
import Verif.Model.VarModes
import Mathlib.Tactic.FieldSimp
import Mathlib.Tactic.Ring
import Mathlib.Algebra.CharZero.Defs
import Mathlib.Data.Rat.Defs
import Mathlib.Algebra.Field.Rat

/-!
# C14  Entering a growth rate or difference and reading it back gives the entered number

The specification is the meaning of the modes (`VarMode.meaning`), which says what number a mode shows for the value of
a period and the value of the reference period.
-/
namespace Iode
open VWorld World

/-- What a mode shows for a value `a` and a reference value `b`. -/
def VarMode.meaning {F : Type} [Field F] (m : VarMode) (a b : F) : F :=
  match m with
  | .level => a
  | .diff | .yoyDiff => a - b
  | .growth | .yoyGrowth => 100 * (a - b) / b

/-- How many periods before is the reference period: the period before, or the same period of the year before. -/
def VarMode.back (m : VarMode) (perYear : Int) : Int :=
  match m with
  | .level => 0
  | .diff => 1
  | .growth => 1
  | .yoyDiff => perYear
  | .yoyGrowth => perYear

theorem VarMode.lag_eq (m : VarMode) (p : Int) : m.lag p = m.back p := by cases m <;> rfl

/-- The mode is a growth rate. -/
def VarMode.Rate (m : VarMode) : Prop := m = .growth ∨ m = .yoyGrowth

namespace VWorld

theorem write_frame {α : Type} {v : VWorld α} (h : Inv v) {i a : Nat} {key : Name}
    (hf : (v.w.dbs i).objs.find key = some a) (x : List α) (j : Nat) (k : Name)
    (hne : v.w.rootOf j ≠ v.w.rootOf i ∨ k ≠ key) : (v.w.writeCore a x).val j k = v.w.val j k := by
  show ((v.w.dbs j).objs.find k).map (fun b => if b = a then x else v.w.heap b) = _
  unfold World.val
  cases hb : (v.w.dbs j).objs.find k with
  | none => rfl
  | some b =>
    simp only [Option.map_some]
    rw [if_neg]
    intro e; subst e
    have hroot := h.base.good.wf.sep j i k key b hb hf
    have linkTop : ∀ y, y = v.w.rootOf y ∨ y ∈ (v.w.dbs (v.w.rootOf y)).children := by
      intro y
      by_cases hk : (v.w.dbs y).kind = .subset
      · exact Or.inr (h.base.reg y hk)
      · exact Or.inl (rootOf_of_ne hk).symm
    have hl : Linked v.w j i := Or.inr ⟨v.w.rootOf i, by rw [← hroot]; exact linkTop j, linkTop i⟩
    rcases hne with hne | hne
    · exact hne hroot
    · exact hne (h.base.good.unshared j i k key b hl hb hf)

end VWorld

section
variable {F : Type} [Field F]

theorem modeSet_some {m : VarMode} {lag : Int} {x : List (Option F)} {t : Nat} (value : F)
    (ht : t < x.length) (h0 : 0 ≤ lag) (hl : lag ≤ t) {b : F}
    (hb : m ≠ .level → x[((t : Int) - lag).toNat]? = some (some b)) :
    modeSet m lag x t (some value) = .ok (x.set t (some
      (match m with | .level => value | .diff | .yoyDiff => b + value | .growth | .yoyGrowth => (value / 100 + 1) * b))) := by
  have hn : ¬ ((t : Int) < lag) := by omega
  cases m with
  | level => simp [modeSet, ht]
  | diff => simp only [modeSet, if_neg hn, hb (by simp), if_pos ht]
  | yoyDiff => simp only [modeSet, if_neg hn, hb (by simp), if_pos ht]
  | growth => simp only [modeSet, if_neg hn, hb (by simp), if_pos ht]
  | yoyGrowth => simp only [modeSet, if_neg hn, hb (by simp), if_pos ht]

theorem modeGet_some (isZero : F → Bool) {m : VarMode} {lag : Int} {x : List (Option F)} {t : Nat} {a b : F}
    (hl : lag ≤ t) (ha : x[t]? = some (some a)) (hb : m ≠ .level → x[((t : Int) - lag).toNat]? = some (some b)) :
    modeGet isZero m lag x t = .ok
      (match m with
       | .level => some a
       | .diff | .yoyDiff => some (a - b)
       | .growth | .yoyGrowth => if isZero b then none else some ((a / b - 1) * 100)) := by
  have hn : ¬ ((t : Int) < lag) := by omega
  cases m with
  | level => simp [modeGet, ha]
  | diff => simp only [modeGet, if_neg hn, ha, hb (by simp)]
  | yoyDiff => simp only [modeGet, if_neg hn, ha, hb (by simp)]
  | growth => simp only [modeGet, if_neg hn, ha, hb (by simp)]
  | yoyGrowth => simp only [modeGet, if_neg hn, ha, hb (by simp)]

theorem modeSet_ok (m : VarMode) {lag : Int} {x : List (Option F)} {t : Nat} (ht : t < x.length) (h0 : 0 ≤ lag)
    (value : Option F) : ∃ y, modeSet m lag x t value = .ok y := by
  by_cases hl : (t : Int) < lag
  · cases m with
    | level => exact ⟨x.set t value, by simp only [modeSet]; exact if_pos ht⟩
    | _ => exact ⟨x, by simp only [modeSet]; exact if_pos hl⟩
  · have hr : x[((t : Int) - lag).toNat]? = some (x[((t : Int) - lag).toNat]'(by omega)) := List.getElem?_eq_getElem _
    cases m with
    | level => exact ⟨x.set t value, by simp only [modeSet]; exact if_pos ht⟩
    | _ => exact ⟨_, by simp only [modeSet]; rw [if_neg hl, hr]; simp only; exact if_pos ht⟩

theorem modeSet_length {m : VarMode} {lag : Int} {x y : List (Option F)} {t : Nat} {value : Option F}
    (h : modeSet m lag x t value = .ok y) : y.length = x.length ∧ ∀ s, s ≠ t → y[s]? = x[s]? := by
  have hset : ∀ z : Option F, (x.set t z).length = x.length ∧ ∀ s, s ≠ t → (x.set t z)[s]? = x[s]? :=
    fun z => ⟨by simp, fun s hs => List.getElem?_set_ne (Ne.symm hs)⟩
  cases m <;> simp only [modeSet] at h <;> (repeat' split at h) <;> cases h <;>
    first | exact hset _ | exact ⟨rfl, fun _ _ => rfl⟩

/-- Setting and reading a value, in terms of the states. -/
theorem kvSet_eq {v : VWorld (Option F)} {i : Nat} {name : Name} {a : Nat} {s : Sample} {t : Int}
    (hp : (v.w.dbs i).getObjPtr ty name = some a) (hs : v.smp i = some s) (h0 : 0 ≤ t) (h1 : t < s.nb) {p : Int}
    (hper : nbPeriodsPerYear s.start.periodicity = .ok p) (m : VarMode) (value : Option F) {y : List (Option F)}
    (hy : modeSet m (m.lag p) (v.w.heap a) t.toNat value = .ok y) :
    v.kvSet i name t m value = ({ v with w := v.w.writeCore a y }, .ok true) := by
  have hn : ¬ (t < 0 ∨ t ≥ s.nb) := by omega
  unfold VWorld.kvSet
  simp only [hp, hs, if_neg hn, hper, hy]

theorem kvGet_eq (isZero : F → Bool) {v : VWorld (Option F)} {i : Nat} {name : Name} {a : Nat} {s : Sample} {t : Int}
    (hp : (v.w.dbs i).getObjPtr ty name = some a) (hs : v.smp i = some s) (h0 : 0 ≤ t) (h1 : t < s.nb) {p : Int}
    (hper : nbPeriodsPerYear s.start.periodicity = .ok p) (m : VarMode) :
    v.kvGet isZero i name t m = modeGet isZero m (m.lag p) (v.w.heap a) t.toNat := by
  have hn : ¬ (t < 0 ∨ t ≥ s.nb) := by omega
  unfold VWorld.kvGet
  simp only [hp, hs, if_neg hn, hper]

theorem perYear_pos {s : Sample} (h : s.Fair) : ∃ p, nbPeriodsPerYear s.start.periodicity = .ok p ∧ 1 ≤ p := by
  obtain ⟨n, ⟨⟨nb, hnb, h1, h2⟩, -⟩, -⟩ := h
  exact ⟨nb, hnb, by omega⟩

theorem perYear_ge {c : Char} {p : Int} (h : nbPeriodsPerYear c = .ok p) : 1 ≤ p := by
  unfold nbPeriodsPerYear at h
  split at h
  · cases h
  · unfold mapPeriodicities at h
    repeat' split at h
    all_goals first | (cases h; decide) | cases h

theorem lag_nonneg {m : VarMode} {p : Int} (hp : 1 ≤ p) : 0 ≤ m.lag p := by cases m <;> simp [VarMode.lag] <;> omega

theorem lag_pos {m : VarMode} {p : Int} (hp : 1 ≤ p) (hm : m ≠ .level) : 1 ≤ m.lag p := by
  cases m <;> simp [VarMode.lag] at * <;> omega

theorem look_iff {v : VWorld (Option F)} {i : Nat} {name : Name} {x : List (Option F)} :
    v.look i name = some x ↔ ∃ a, (v.w.dbs i).getObjPtr ty name = some a ∧ v.w.heap a = x := by
  unfold VWorld.look World.look; simp [Option.map_eq_some_iff]

end

/-- C14. In every state, for every workspace with a sample, every variable with one value per period, position in the
    sample, mode and number: if the reference period (one period or one year before) exists, holds a number, and that number is not zero for a
    growth rate, then after storing the number in the mode, reading in the mode gives it back. Exact arithmetic. -/
theorem C14_read_back {F : Type} [Field F] [CharZero F] (isZero : F → Bool) (hz : isZero 0 = true)
    (v : VWorld (Option F)) (i : Nat) (name : Name) (x : List (Option F))
    (s : Sample) (t p : Int) (m : VarMode) (value : F)
    (hx : v.look i name = some x)
    (hs : v.smp i = some s)
    (hlen : (x.length : Int) = s.nb) (h0 : 0 ≤ t) (h1 : t < s.nb) (hp : nbPeriodsPerYear s.start.periodicity = .ok p) (hl : m.back p ≤ t)
    (href : m ≠ .level → ∃ b, x[(t - m.back p).toNat]? = some (some b) ∧ (m.Rate → isZero b = false)) :
    (v.kvSet i name t m (some value)).2 = .ok true ∧
      ((v.kvSet i name t m (some value)).1).kvGet isZero i name t m = .ok (some value) := by
  rw [← m.lag_eq p] at hl href
  obtain ⟨a, hpa, hxa⟩ := look_iff.1 hx
  have hp1 := perYear_ge hp
  have htt : ((t.toNat : Nat) : Int) = t := Int.toNat_of_nonneg h0
  have ht : t.toNat < (v.w.heap a).length := by rw [hxa]; omega
  have hlag := lag_nonneg (m := m) hp1
  obtain ⟨b, hb, hbz⟩ : ∃ b : F, (m ≠ .level → (v.w.heap a)[(((t.toNat : Nat) : Int) - m.lag p).toNat]? = some (some b)) ∧
      (m.Rate → isZero b = false) := by
    by_cases hm : m = .level
    · exact ⟨0, fun hc => absurd hm hc, fun hc => by subst hm; rcases hc with hc | hc <;> cases hc⟩
    · obtain ⟨b, hb, hz⟩ := href hm
      exact ⟨b, fun _ => by rw [htt, hxa]; exact hb, hz⟩
  have hset := modeSet_some value ht hlag (by omega) hb
  rw [kvSet_eq hpa hs h0 h1 hp m (some value) hset]
  refine ⟨rfl, ?_⟩
  simp only
  rw [kvGet_eq isZero (v := { v with w := v.w.writeCore a _ }) (s := s) hpa hs h0 h1 hp m]
  have hheap : ∀ y, (v.w.writeCore a y).heap a = y := fun y => if_pos rfl
  simp only [hheap]
  rw [modeGet_some isZero (by omega) (List.getElem?_set_self ht) (b := b) ?_]
  · have hbne : m.Rate → b ≠ 0 := by
      intro hm hb0
      have := hbz hm
      rw [hb0, hz] at this; cases this
    cases m with
    | level => rfl
    | diff => simp
    | yoyDiff => simp
    | growth =>
      have h1 := hbne (Or.inl rfl)
      rw [hbz (Or.inl rfl)]
      simp only [Bool.false_eq_true, if_false]
      congr 2; field_simp; ring
    | yoyGrowth =>
      have h1 := hbne (Or.inr rfl)
      rw [hbz (Or.inr rfl)]
      simp only [Bool.false_eq_true, if_false]
      congr 2; field_simp; ring
  · intro hm
    have := lag_pos hp1 hm
    rw [List.getElem?_set_ne (by omega)]
    exact hb hm

/-- C14. Every state a regular history reaches meets the condition of `C14_read_back` on the length. -/
theorem C14_read_back_reachable {F : Type} [Field F] [CharZero F] (isZero : F → Bool) (hz : isZero 0 = true)
    (ops : List (VOp (Option F))) (hr : Regular none VWorld.init ops) (i : Nat) (name : Name) (x : List (Option F))
    (s : Sample) (t p : Int) (m : VarMode) (value : F)
    (hx : ((VWorld.init : VWorld (Option F)).run none ops).look i name = some x)
    (hs : ((VWorld.init : VWorld (Option F)).run none ops).smp i = some s)
    (h0 : 0 ≤ t) (h1 : t < s.nb) (hp : nbPeriodsPerYear s.start.periodicity = .ok p) (hl : m.back p ≤ t)
    (href : m ≠ .level → ∃ b, x[(t - m.back p).toNat]? = some (some b) ∧ (m.Rate → isZero b = false)) :
    let v := (VWorld.init : VWorld (Option F)).run none ops
    (v.kvSet i name t m (some value)).2 = .ok true ∧
      ((v.kvSet i name t m (some value)).1).kvGet isZero i name t m = .ok (some value) := by
  have hlen := look_length (Inv.run ops (Inv.init (α := Option F)) hr) hx
  refine C14_read_back isZero hz _ i name x s t p m value hx hs ?_ h0 h1 hp hl href
  rw [hlen]; unfold nb; rw [hs]

/-- C14. In the year on year modes the reference position is that of the same period of the year before; in the other
    modes (but LEVEL) that of the period before. -/
theorem C14_reference (s : Sample) (hw : s.start.WF) (t p : Int) (hp : nbPeriodsPerYear s.start.periodicity = .ok p)
    (m : VarMode) (q : Period) (hq : s.start.shift t = .ok q) :
    s.start.shift (t - m.back p) = (match m with
      | .level => .ok q
      | .diff | .growth => q.shift (-1)
      | .yoyDiff | .yoyGrowth => .ok { q with year := q.year - 1 }) := by
  have hone : s.start.shift (t - 1) = q.shift (-1) := by
    rw [Int.sub_eq_add_neg, ← C01_shift_add _ hw, hq, Res.bind_ok]
  have hyear : s.start.shift (t - p) = .ok { q with year := q.year - 1 } := by
    obtain ⟨nb, hnb, g1, g2⟩ := hw
    rw [hp] at hnb; cases hnb
    obtain ⟨q', hq', hper, hq1, hq2, hpos⟩ := Period.shift_spec hp g1 g2 t
    rw [hq] at hq'; cases hq'
    obtain ⟨r, hr, hrper, hr1, hr2, hrpos⟩ := Period.shift_spec hp g1 g2 (t - p)
    rw [hr]
    refine congrArg Res.ok (Period.ext_of_pos (nbPeriodsPerYear_pos hp) hr1 hr2 hq1 hq2 (by rw [hrper, hper]) ?_)
    simp only [Int.mul_sub, Int.mul_one]
    omega
  cases m with
  | level => simpa [VarMode.back] using hq
  | diff => exact hone
  | growth => exact hone
  | yoyDiff => exact hyear
  | yoyGrowth => exact hyear

example : (Period.mk 2000 2 'Q').shift (9 - VarMode.yoyGrowth.back 4) = .ok ⟨2001, 3, 'Q'⟩ ∧
    (Period.mk 2000 2 'Q').shift 9 = .ok ⟨2002, 3, 'Q'⟩ := by decide

/-- C14. Reading in a mode shows the meaning of the mode, for a value and a reference that are numbers (the reference not
    zero for a growth rate). -/
theorem C14_reading {F : Type} [Field F] (isZero : F → Bool) (hz : isZero 0 = true)
    (v : VWorld (Option F)) (i : Nat) (name : Name) (x : List (Option F))
    (s : Sample) (t p : Int) (m : VarMode) (a b : F) (hx : v.look i name = some x) (hs : v.smp i = some s)
    (h0 : 0 ≤ t) (h1 : t < s.nb) (hp : nbPeriodsPerYear s.start.periodicity = .ok p) (hl : m.back p ≤ t)
    (ha : x[t.toNat]? = some (some a)) (hb : x[(t - m.back p).toNat]? = some (some b)) (hbz : m.Rate → isZero b = false) :
    v.kvGet isZero i name t m = .ok (some (m.meaning a b)) := by
  rw [← m.lag_eq p] at hl hb
  obtain ⟨ad, hpa, hxa⟩ := look_iff.1 hx
  have htt : ((t.toNat : Nat) : Int) = t := Int.toNat_of_nonneg h0
  rw [kvGet_eq isZero hpa hs h0 h1 hp m, hxa, modeGet_some isZero (b := b) (by omega) ha (fun _ => by rw [htt]; exact hb)]
  have hbne : m.Rate → b ≠ 0 := by
    intro hm hb0
    have := hbz hm
    rw [hb0, hz] at this; cases this
  cases m with
  | level => rfl
  | diff => rfl
  | yoyDiff => rfl
  | growth =>
    have h1 := hbne (Or.inl rfl)
    rw [hbz (Or.inl rfl)]
    simp only [Bool.false_eq_true, if_false, VarMode.meaning]
    congr 2; field_simp
  | yoyGrowth =>
    have h1 := hbne (Or.inr rfl)
    rw [hbz (Or.inr rfl)]
    simp only [Bool.false_eq_true, if_false, VarMode.meaning]
    congr 2; field_simp

/-- C14. Storing a value (whatever it is and whether it succeeds) never leaves the vector and touches nothing but the
    given position of the given variable: other names, other positions and other families are unchanged. -/
theorem C14_frame_partial {F : Type} [Field F] (ops : List (VOp (Option F))) (hr : Regular none VWorld.init ops)
    (i : Nat) (name : Name) (t : Int) (m : VarMode) (value : Option F) :
    let v := (VWorld.init : VWorld (Option F)).run none ops
    let v' := (v.kvSet i name t m value).1
    (v.kvSet i name t m value).2 = .ok true ∧ v'.smp = v.smp ∧
    (∀ j nm, v.w.topOf j ≠ v.w.topOf i ∨ toKey ty nm ≠ toKey ty name → v'.look j nm = v.look j nm) ∧
    (∀ x, v.look i name = some x → ∃ y, v'.look i name = some y ∧ y.length = x.length ∧
      ∀ s : Nat, (s : Int) ≠ t → y[s]? = x[s]?) := by
  have h := Inv.run ops (Inv.init (α := Option F)) hr
  simp only
  generalize (VWorld.init : VWorld (Option F)).run none ops = v at *
  have nothing : v.kvSet i name t m value = (v, .ok true) →
      (v.kvSet i name t m value).2 = .ok true ∧ (v.kvSet i name t m value).1.smp = v.smp ∧
      (∀ j nm, v.w.topOf j ≠ v.w.topOf i ∨ toKey ty nm ≠ toKey ty name →
        (v.kvSet i name t m value).1.look j nm = v.look j nm) ∧
      (∀ x, v.look i name = some x → ∃ y, (v.kvSet i name t m value).1.look i name = some y ∧ y.length = x.length ∧
        ∀ s : Nat, (s : Int) ≠ t → y[s]? = x[s]?) := by
    intro he; rw [he]
    exact ⟨rfl, rfl, fun _ _ _ => rfl, fun x hx => ⟨x, hx, rfl, fun _ _ => rfl⟩⟩
  cases hpa : (v.w.dbs i).getObjPtr ty name with
  | none => exact nothing (by unfold VWorld.kvSet; simp only [hpa])
  | some a =>
    cases hs : v.smp i with
    | none => exact nothing (by unfold VWorld.kvSet; simp only [hpa, hs])
    | some s =>
      by_cases hc : t < 0 ∨ t ≥ s.nb
      · exact nothing (by unfold VWorld.kvSet; simp only [hpa, hs, if_pos hc])
      · obtain ⟨p, hp, hp1⟩ := perYear_pos (h.fair i s hs)
        have hx : v.look i name = some (v.w.heap a) := look_iff.2 ⟨a, hpa, rfl⟩
        have hlen := look_length h hx
        have hnb : v.nb i = s.nb := by unfold nb; rw [hs]
        have hlag := lag_nonneg (m := m) hp1
        have htl : t.toNat < (v.w.heap a).length := by omega
        have hy := modeSet_ok m htl hlag value
        obtain ⟨y, hy⟩ := hy
        rw [kvSet_eq hpa hs (by omega) (by omega) hp m value hy]
        refine ⟨rfl, rfl, ?_, ?_⟩
        · intro j nm hne
          have hkeys : (v.w.writeCore a y).KeysOk ty := h.base.good.keys
          show (v.w.writeCore a y).look ty j nm = v.w.look ty j nm
          rw [look_eq (by decide) hkeys, look_eq (by decide) h.base.good.keys]
          have hf : (v.w.dbs i).objs.find (toKey ty name) = some a := by
            rw [getObjPtr_of_ne (by decide)] at hpa
            split at hpa
            · cases hpa
            · exact hpa
          refine write_frame h hf y j _ ?_
          rcases hne with hne | hne
          · left; intro e; apply hne
            rw [topOf_eq h.base.good.wf, topOf_eq h.base.good.wf, e]
          · exact Or.inr hne
        · intro x hx'
          rw [hx] at hx'; cases hx'
          obtain ⟨l1, l2⟩ := modeSet_length hy
          refine ⟨y, look_iff.2 ⟨a, hpa, if_pos rfl⟩, l1, fun s hs => l2 s (by omega)⟩

/-! ### Examples -/

/-- 2000Q1:2001Q4, exact zero test -/
def smpQ : Sample := ⟨⟨2000, 1, 'Q'⟩, ⟨2001, 4, 'Q'⟩, 8⟩
theorem smpQ_fair : smpQ.Fair := ⟨7, ⟨⟨4, rfl, by decide, by decide⟩, ⟨4, rfl, by decide, by decide⟩, rfl, rfl⟩, by decide, rfl⟩

def modesHistory : List (VOp (Option Rat)) :=
  [.create true, .setSample 0 smpQ, .set 0 "A".toList [some 1, some 2, some 4, some 8, some 16, none, some 0, some 5]]

example : Regular none VWorld.init modesHistory := by
  have h := smpQ_fair
  simp only [Regular, modesHistory, VOp.RenamesOntoUsed, VOp.ClearsSubset, VOp.BadSample]
  simp [h]

example :
    let v := (VWorld.init : VWorld (Option Rat)).run none modesHistory
    v.kvGet (· == 0) 0 "A".toList 4 .yoyGrowth = .ok (some 1500) ∧
    v.kvGet (· == 0) 0 "A".toList 2 .growth = .ok (some 100) ∧
    (v.kvSet 0 "A".toList 2 .growth (some 50)).1.kvGet (· == 0) 0 "A".toList 2 .level = .ok (some 3) ∧
    (v.kvSet 0 "A".toList 7 .growth (some 50)).1.kvGet (· == 0) 0 "A".toList 7 .level = .ok (some 0) ∧
    (v.kvSet 0 "A".toList 7 .growth (some 50)).1.kvGet (· == 0) 0 "A".toList 7 .growth = .ok none := by decide +kernel

end Iode
