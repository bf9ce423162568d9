import Verif.Spec.TblCalc
import Mathlib.Tactic.FieldSimp
import Mathlib.Tactic.Ring
import Mathlib.Tactic.Linarith
import Mathlib.Tactic.Positivity
import Mathlib.Tactic.NormNum
import Mathlib.Algebra.Order.Group.Int.Sum
import Mathlib.Analysis.SpecialFunctions.Pow.Real

/-!
# C59: cells of tables
-/
namespace Iode.TblCalc

open Iode.GSample

section
variable {K : Type} [Field K] [LinearOrder K]

theorem quot_iff (s : Source K) (h : Bool) (t : Int) (x : K) : quot s h t = some x ↔ Shows s h t x := by
  unfold quot Shows
  cases hc : s.cell t with
  | none => simp
  | some y =>
    cases h with
    | false => simp [eq_comm]
    | true =>
      cases hd : s.div t with
      | none => simp
      | some d =>
        simp only [if_true, Option.some.injEq, exists_eq_left']
        by_cases h0 : d = 0
        · simp [h0]
        · rw [if_neg h0, Option.some.injEq, eq_comm, eq_div_iff h0]
          simp [h0]

theorem shows_unique {s : Source K} {h : Bool} {t : Int} {x y : K} (hx : Shows s h t x) (hy : Shows s h t y) : x = y := by
  rw [← quot_iff] at hx hy
  rw [hx] at hy
  exact Option.some.inj hy

theorem addUp_iff (v : Int → Option K) : ∀ (c : Nat) (j : Int) (acc x : K), addUp v c j acc = some x ↔
    ∃ f : Int → K, (∀ i ∈ Finset.Ico j (j + c), v i = some (f i)) ∧ x = acc + ∑ i ∈ Finset.Ico j (j + c), f i
  | 0, j, acc, x => by simp [addUp, eq_comm]
  | c + 1, j, acc, x => by
    have hI : Finset.Ico j (j + ((c + 1 : Nat) : Int)) = insert j (Finset.Ico (j + 1) (j + 1 + (c : Int))) := by
      ext i
      simp only [Finset.mem_Ico, Finset.mem_insert]
      push_cast
      omega
    have hn : j ∉ Finset.Ico (j + 1) (j + 1 + (c : Int)) := by simp
    rw [hI]
    simp only [Finset.sum_insert hn, Finset.forall_mem_insert]
    rw [addUp]
    cases hv : v j with
    | none => simp
    | some y =>
      simp only
      rw [addUp_iff v c (j + 1) (acc + y) x]
      constructor
      · rintro ⟨f, hf, hx⟩
        refine ⟨fun i => if i = j then y else f i, ⟨by simp, fun i hi => ?_⟩, ?_⟩
        · have hne : i ≠ j := by rintro rfl; exact hn hi
          simp only [if_neg hne]
          exact hf i hi
        · rw [hx, add_assoc]
          simp only [if_true]
          congr 2
          refine Finset.sum_congr rfl fun i hi => ?_
          have hne : i ≠ j := by rintro rfl; exact hn hi
          simp only [if_neg hne]
      · rintro ⟨f, ⟨h1, hf⟩, hx⟩
        refine ⟨f, hf, ?_⟩
        have e : y = f j := Option.some.inj h1
        rw [hx, e]
        ring

theorem icc_ico (t0 t1 : Int) :
    Finset.Ico (min t0 t1) (min t0 t1 + ((max t0 t1 - min t0 t1 + 1).toNat : Int)) = Finset.Icc (min t0 t1) (max t0 t1) := by
  ext i
  simp only [Finset.mem_Ico, Finset.mem_Icc]
  omega

theorem per_steps (t0 t1 : Int) : max t0 t1 - min t0 t1 = (steps t0 t1 : Int) := by
  unfold steps
  omega

theorem total_iff (s : Source K) (h : Bool) (t0 t1 : Int) (x : K) :
    addUp (quot s h) (max t0 t1 - min t0 t1 + 1).toNat (min t0 t1) 0 = some x ↔
    ∃ f : Int → K, (∀ j ∈ Finset.Icc (min t0 t1) (max t0 t1), Shows s h j (f j)) ∧ x = ∑ j ∈ Finset.Icc (min t0 t1) (max t0 t1), f j := by
  rw [addUp_iff, icc_ico]
  simp only [quot_iff, zero_add]
end

variable {K : Type} [Field K] [LinearOrder K] [IsStrictOrderedRing K] {pow : K → K → K}

/-- The sign of the ratio is not negative when mean growth is asked. -/
def RatioOk (s : Source K) (hasDiv : Bool) (op : Op) (t0 t1 : Int) : Prop :=
  op = .mgrt → ∀ a b, Shows s hasDiv t0 a → Shows s hasDiv t1 b → 0 ≤ a / b

theorem periodOp_iff {s : Source K} {h : Bool} {op : Op} (hp : op = .mgrt → Roots pow) {t0 t1 : Int} (hr : RatioOk s h op t0 t1) {a b : K}
    (ha : Shows s h t0 a) (hb : Shows s h t1 b) (x : K) :
    periodOp pow (quot s h) op t0 t1 a b = some x ↔ Between (Shows s h) op t0 t1 x := by
  have hbt : ∀ P : K → K → Prop, (∃ a b, Shows s h t0 a ∧ Shows s h t1 b ∧ P a b) ↔ P a b := fun P =>
    ⟨fun ⟨a', b', h1, h2, h3⟩ => by rwa [shows_unique h1 ha, shows_unique h2 hb] at h3, fun h3 => ⟨a, b, ha, hb, h3⟩⟩
  have hz : (max t0 t1 - min t0 t1 = 0) ↔ t0 = t1 := by omega
  have hcast : ((max t0 t1 - min t0 t1 : Int) : K) = (steps t0 t1 : K) := by rw [per_steps]; simp
  have h100 : (100 : K) ≠ 0 := by norm_num
  cases op with
  | diff =>
    simp only [periodOp, Between]
    rw [hbt fun a b => x = a - b, Option.some.injEq, eq_comm]
  | mdiff =>
    simp only [periodOp, Between]
    rw [hbt fun a b => if t0 = t1 then x = 0 else x * (steps t0 t1 : K) = a - b]
    by_cases h1 : t0 = t1
    · rw [if_pos (hz.mpr h1), if_pos h1, Option.some.injEq, eq_comm]
    · rw [if_neg (fun h => h1 (hz.mp h)), if_neg h1, Option.some.injEq, eq_comm, hcast, eq_div_iff]
      have : steps t0 t1 ≠ 0 := by unfold steps; omega
      exact_mod_cast this
  | grt =>
    simp only [periodOp, Between]
    rw [hbt fun a b => b ≠ 0 ∧ b * (1 + x / 100) = a]
    by_cases h1 : b = 0
    · simp [h1]
    · rw [if_neg h1, Option.some.injEq]
      constructor
      · rintro rfl
        refine ⟨h1, ?_⟩
        field_simp
        ring
      · rintro ⟨-, rfl⟩
        field_simp
        ring
  | base =>
    simp only [periodOp, Between]
    rw [hbt fun a b => b ≠ 0 ∧ x / 100 * b = a]
    by_cases h1 : b = 0
    · simp [h1]
    · rw [if_neg h1, Option.some.injEq]
      constructor
      · rintro rfl
        refine ⟨h1, ?_⟩
        field_simp
      · rintro ⟨-, rfl⟩
        field_simp
  | mgrt =>
    simp only [periodOp, Between]
    rw [hbt fun a b => if t0 = t1 then x = 0 else b ≠ 0 ∧ 0 ≤ 1 + x / 100 ∧ b * (1 + x / 100) ^ steps t0 t1 = a]
    by_cases h1 : t0 = t1
    · rw [if_pos (hz.mpr h1), if_pos h1, Option.some.injEq, eq_comm]
    · rw [if_neg (fun h => h1 (hz.mp h)), if_neg h1]
      by_cases h2 : b = 0
      · simp [h2]
      · have hr' := hr rfl a b ha hb
        rw [if_neg h2, if_neg (not_lt.mpr hr'), Option.some.injEq, hcast]
        have hs : 0 < steps t0 t1 := by unfold steps; omega
        obtain ⟨p1, p2⟩ := hp rfl (a / b) (steps t0 t1) hr' hs
        generalize pow (a / b) (1 / (steps t0 t1 : K)) = r at p1 p2 ⊢
        constructor
        · rintro rfl
          have e : 1 + 1 * 100 * (r - 1) / 100 = r := by field_simp; ring
          rw [e]
          refine ⟨h2, p1, ?_⟩
          rw [p2]
          field_simp
        · rintro ⟨-, q1, q2⟩
          have e : (1 + x / 100) ^ steps t0 t1 = r ^ steps t0 t1 := by
            rw [p2, ← q2]
            field_simp
          have e' := (pow_left_inj₀ q1 p1 hs.ne').mp e
          rw [← e']
          field_simp
          ring
  | add =>
    simp only [periodOp, Between]
    rw [hbt fun a b => ∃ f : Int → K, (∀ j ∈ Finset.Icc (min t0 t1) (max t0 t1), Shows s h j (f j)) ∧
      x = ∑ j ∈ Finset.Icc (min t0 t1) (max t0 t1), f j]
    exact total_iff s h t0 t1 x
  | mean =>
    simp only [periodOp, Between]
    rw [hbt fun a b => ∃ f : Int → K, (∀ j ∈ Finset.Icc (min t0 t1) (max t0 t1), Shows s h j (f j)) ∧
      x * (steps t0 t1 + 1 : Nat) = ∑ j ∈ Finset.Icc (min t0 t1) (max t0 t1), f j]
    have hn : ((steps t0 t1 : K) + 1) ≠ 0 := by positivity
    rw [Option.map_eq_some_iff, hcast]
    constructor
    · rintro ⟨y, h1, rfl⟩
      obtain ⟨f, hf, h3⟩ := (total_iff s h t0 t1 y).mp h1
      refine ⟨f, hf, ?_⟩
      rw [← h3]
      push_cast
      field_simp
    · rintro ⟨f, hf, h3⟩
      refine ⟨x * (steps t0 t1 + 1), (total_iff s h t0 t1 _).mpr ⟨f, hf, ?_⟩, by field_simp⟩
      rw [← h3]
      push_cast
      rfl

/-- The ratios of the column are not negative in the file when mean growth is asked. -/
def ColOk (c : Col) (s : Source K) (hasDiv : Bool) : Prop :=
  ∀ op p t0 t1, c.opy = some (op, p) → c.per.difference s.start = .ok t0 → p.difference s.start = .ok t1 → RatioOk s hasDiv op t0 t1

theorem bind_ok_iff {α β : Type} (r : Res α) (k : α → Res β) (b : β) : r.bind k = .ok b ↔ ∃ a, r = .ok a ∧ k a = .ok b := by
  cases r <;> simp [Res.bind]

theorem fileVal_iff {c : Col} (hp : ∀ p, c.opy = some (.mgrt, p) → Roots pow) {s : Source K} {h : Bool} (hc : ColOk c s h) (x : K) :
    fileVal pow c s h = .ok (some x) ↔ InFile c s h x := by
  unfold fileVal InFile
  rw [bind_ok_iff]
  refine exists_congr fun t0 => and_congr_right fun h0 => ?_
  cases hv : quot s h t0 with
  | none =>
    have hno : ∀ y, ¬ Shows s h t0 y := fun y hy => by
      rw [(quot_iff s h t0 y).mpr hy] at hv
      cases hv
    cases ho : c.opy with
    | none => simp [hno]
    | some o =>
      simp only [Res.ok.injEq, reduceCtorEq, false_iff]
      rintro ⟨t1, -, a, b, h1, -⟩
      exact hno a h1
  | some y0 =>
    have hy0 := (quot_iff s h t0 y0).mp hv
    cases ho : c.opy with
    | none =>
      simp only [Res.ok.injEq, Option.some.injEq]
      exact ⟨fun e => e ▸ hy0, fun hx => shows_unique hy0 hx⟩
    | some o =>
      obtain ⟨op, p⟩ := o
      simp only
      rw [bind_ok_iff]
      refine exists_congr fun t1 => and_congr_right fun h1 => ?_
      cases hv1 : quot s h t1 with
      | none =>
        simp only [Res.ok.injEq, reduceCtorEq, false_iff]
        rintro ⟨a, b, -, h2, -⟩
        rw [(quot_iff s h t1 b).mpr h2] at hv1
        cases hv1
      | some y1 =>
        simp only [Res.ok.injEq]
        exact periodOp_iff (fun e => hp p (by rw [ho, e])) (hc op p t0 t1 ho h0 h1) hy0 ((quot_iff s h t1 y1).mp hv1) x

theorem oneFile_iff {c : Col} (hp : ∀ p, c.opy = some (.mgrt, p) → Roots pow) {src : Int → Option (Source K)} {h : Bool} {f : Int} {k : K → Res (Out K)}
    (hc : ∀ s, src f = some s → ColOk c s h) (z : K) :
    oneFile pow c src h f k = .ok (.num z) ↔ (1 ≤ f ∧ f ≤ 5) ∧ ∃ s, Usable src h f s ∧ ∃ x, InFile c s h x ∧ k x = .ok (.num z) := by
  unfold oneFile Usable
  by_cases hf : f < 1 ∨ 5 < f
  · rw [if_pos hf]
    simp only [reduceCtorEq, false_iff, not_and]
    omega
  · rw [if_neg hf]
    have hf' : 1 ≤ f ∧ f ≤ 5 := by omega
    simp only [hf', true_and, and_self]
    cases hs : src f with
    | none => simp
    | some s =>
      simp only [Option.some.injEq]
      cases hl : s.linked with
      | false =>
        simp only [Bool.not_false, if_true, Res.ok.injEq, reduceCtorEq, false_iff]
        rintro ⟨s', ⟨rfl, h2, -⟩, -⟩
        rw [hl] at h2
        cases h2
      | true =>
        simp only [Bool.not_true, Bool.false_eq_true, if_false]
        by_cases hd : (h && !s.divLinked) = true
        · rw [if_pos hd]
          simp only [Res.ok.injEq, reduceCtorEq, false_iff]
          rintro ⟨s', ⟨rfl, -, h3⟩, -⟩
          rw [Bool.and_eq_true, Bool.not_eq_true'] at hd
          rw [h3 hd.1] at hd
          cases hd.2
        · rw [if_neg hd, bind_ok_iff]
          have hd' : h = true → s.divLinked = true := by
            intro e
            subst e
            simpa using hd
          constructor
          · rintro ⟨r, h1, h2⟩
            cases r with
            | none => cases h2
            | some x => exact ⟨s, ⟨rfl, hl, hd'⟩, x, (fileVal_iff hp (hc s hs) x).mp h1, h2⟩
          · rintro ⟨s', ⟨rfl, -, -⟩, x, h1, h2⟩
            exact ⟨some x, (fileVal_iff hp (hc s hs) x).mpr h1, h2⟩

theorem fileOp_iff (op : Op) (x y z : K) : fileOp op x y = .num z ↔ BetweenFiles op x y z := by
  have h100 : (100 : K) ≠ 0 := by norm_num
  cases op with
  | diff => simp [fileOp, BetweenFiles, eq_comm]
  | mdiff => simp [fileOp, BetweenFiles]
  | mean =>
    simp only [fileOp, BetweenFiles, Out.num.injEq]
    constructor
    · rintro rfl
      field_simp
    · intro e
      rw [← e]
      field_simp
  | grt =>
    simp only [fileOp, BetweenFiles]
    by_cases h1 : y = 0
    · simp [h1]
    · rw [if_neg h1, Out.num.injEq]
      constructor
      · rintro rfl
        refine ⟨h1, ?_⟩
        field_simp
        ring
      · rintro ⟨-, rfl⟩
        field_simp
        ring
  | mgrt => simp [fileOp, BetweenFiles]
  | add => simp [fileOp, BetweenFiles, eq_comm]
  | base =>
    simp only [fileOp, BetweenFiles]
    by_cases h1 : y = 0
    · simp [h1]
    · rw [if_neg h1, Out.num.injEq]
      constructor
      · rintro rfl
        refine ⟨h1, ?_⟩
        field_simp
      · rintro ⟨-, rfl⟩
        field_simp

/-- **C59** A column without operation between files shows `x` exactly when its file can be used and `x` is the value of the formula,
    divided by its divisor, at the period of the column, or the result of the operation between its two periods. -/
theorem C59_column {c : Col} (hp : ∀ p, c.opy = some (.mgrt, p) → Roots pow) {src : Int → Option (Source K)} {h : Bool} (ho : c.opf = none)
    (hc : ∀ s, src c.file = some s → ColOk c s h) (x : K) :
    colCalc pow src h c = .ok (.num x) ↔ (1 ≤ c.file ∧ c.file ≤ 5) ∧ ∃ s, Usable src h c.file s ∧ InFile c s h x := by
  unfold colCalc
  rw [oneFile_iff hp hc, ho]
  simp

/-- **C59** A column with an operation between files shows the result of the operation between what it would show of each of them. -/
theorem C59_files {c : Col} (hp : ∀ p, c.opy = some (.mgrt, p) → Roots pow) {src : Int → Option (Source K)} {h : Bool} {op : Op} {f : Int} (ho : c.opf = some (op, f))
    (hc : ∀ g s, src g = some s → ColOk c s h) (z : K) :
    colCalc pow src h c = .ok (.num z) ↔ (1 ≤ c.file ∧ c.file ≤ 5) ∧ (1 ≤ f ∧ f ≤ 5) ∧ ∃ s s', Usable src h c.file s ∧ Usable src h f s' ∧
      ∃ x y, InFile c s h x ∧ InFile c s' h y ∧ BetweenFiles op x y z := by
  unfold colCalc
  rw [oneFile_iff hp (hc _), ho]
  simp only [oneFile_iff hp (hc _), Res.ok.injEq, fileOp_iff]
  constructor
  · rintro ⟨h1, s, h2, x, h3, h4, s', h5, y, h6, h7⟩
    exact ⟨h1, h4, s, s', h2, h5, x, y, h3, h6, h7⟩
  · rintro ⟨h1, h4, s, s', h2, h5, x, y, h3, h6, h7⟩
    exact ⟨h1, s, h2, x, h3, h4, s', h5, y, h6, h7⟩

omit [IsStrictOrderedRing K] in
theorem fileVal_total (pow : K → K → K) {c : Col} {s : Source K} {h : Bool} (h0 : ∃ t, c.per.difference s.start = .ok t)
    (h1 : ∀ op p, c.opy = some (op, p) → ∃ t, p.difference s.start = .ok t) : ∃ r, fileVal pow c s h = .ok r := by
  obtain ⟨t0, h0⟩ := h0
  unfold fileVal
  simp only [h0, Res.bind]
  cases quot s h t0 with
  | none => exact ⟨_, rfl⟩
  | some y0 =>
    cases ho : c.opy with
    | none => exact ⟨_, rfl⟩
    | some o =>
      obtain ⟨op, p⟩ := o
      obtain ⟨t1, h1⟩ := h1 op p ho
      simp only [h1]
      cases quot s h t1 with
      | none => exact ⟨_, rfl⟩
      | some y1 => exact ⟨_, rfl⟩

/-- A file that is not there, or whose sample has the periodicity of the column and whose content is all the divisor asks for. -/
def Fits (c : Col) (src : Int → Option (Source K)) (h : Bool) (f : Int) : Prop :=
  (1 ≤ f ∧ f ≤ 5) ∧ ∀ s, src f = some s → (h = true → s.divLinked = true) ∧ (∃ t, c.per.difference s.start = .ok t) ∧
    ∀ op p, c.opy = some (op, p) → ∃ t, p.difference s.start = .ok t

omit [IsStrictOrderedRing K] in
theorem oneFile_total (pow : K → K → K) {c : Col} {src : Int → Option (Source K)} {h : Bool} {f : Int} (hf : Fits c src h f)
    {k : K → Res (Out K)} (hk : ∀ x, k x = .ok .na ∨ ∃ z, k x = .ok (.num z)) :
    oneFile pow c src h f k = .ok .na ∨ ∃ z, oneFile pow c src h f k = .ok (.num z) := by
  obtain ⟨hf, hs⟩ := hf
  unfold oneFile
  rw [if_neg (by omega)]
  cases hsf : src f with
  | none => exact .inl rfl
  | some s =>
    obtain ⟨h1, h2, h3⟩ := hs s hsf
    simp only
    cases s.linked with
    | false => exact .inl rfl
    | true =>
      have hd : ¬ ((h && !s.divLinked) = true) := by
        cases h with
        | false => simp
        | true => simp [h1 rfl]
      obtain ⟨r, hr⟩ := fileVal_total pow (s := s) (h := h) h2 h3
      simp only [Bool.not_true, Bool.false_eq_true, if_false, if_neg hd, hr, Res.bind]
      cases r with
      | none => exact .inl rfl
      | some x => exact hk x

omit [IsStrictOrderedRing K] in
/-- **C59** When the files have numbers from 1 to 5 and the periodicity of the column, and contain what the divisor asks for, a column shows
    a number or is missing: nothing else happens. -/
theorem C59_total (pow : K → K → K) {c : Col} {src : Int → Option (Source K)} {h : Bool} (h1 : Fits c src h c.file)
    (h2 : ∀ op f, c.opf = some (op, f) → Fits c src h f) :
    colCalc pow src h c = .ok .na ∨ ∃ x, colCalc pow src h c = .ok (.num x) := by
  refine oneFile_total pow h1 fun x => ?_
  cases ho : c.opf with
  | none => exact .inr ⟨x, rfl⟩
  | some o =>
    obtain ⟨op, f⟩ := o
    refine oneFile_total pow (h2 op f ho) fun y => ?_
    cases hy : fileOp op x y with
    | num z => exact .inr ⟨z, rfl⟩
    | na => exact .inl rfl
    | stop =>
      exfalso
      cases op <;> simp only [fileOp] at hy <;> (try split at hy) <;> cases hy

/-! ## Lines -/

theorem resize_get (dim : Nat) : ∀ (cols : List Col) (d j : Nat), d < dim → (resize dim cols)[d + j * dim]? = cols[j]?
  | [], d, j, _ => by simp [resize]
  | c :: cs, d, 0, hd => by
    simp only [resize, List.flatMap_cons, Nat.zero_mul, Nat.add_zero]
    rw [List.getElem?_append_left (by simpa using hd), List.getElem?_replicate, if_pos hd]
    rfl
  | c :: cs, d, j + 1, hd => by
    have ih := resize_get dim cs d j hd
    simp only [resize, List.flatMap_cons] at ih ⊢
    have e : d + (j + 1) * dim = dim + (d + j * dim) := by rw [Nat.succ_mul]; omega
    rw [e, List.getElem?_append_right (by simp), List.length_replicate, Nat.add_sub_cancel_left, ih]
    rfl

theorem resize_length (dim : Nat) (cols : List Col) : (resize dim cols).length = cols.length * dim := by
  induction cols with
  | nil => simp [resize]
  | cons c cs ih =>
    simp only [resize, List.flatMap_cons, List.length_append, List.length_replicate, List.length_cons] at ih ⊢
    rw [ih, Nat.succ_mul, Nat.add_comm]

/-- The value kept for a result. -/
def kept : Out K → Option K
  | .num x => some x
  | _ => none

omit [Field K] [LinearOrder K] [IsStrictOrderedRing K] in
theorem execCols_ok {f : Col → Res (Out K)} {cols : List Col} {dim d : Nat} (hd : d < dim) {o : Nat → Out K} :
    ∀ (c j : Nat) (res : List (Option K)), (∀ k, j ≤ k → k < j + c → ∃ col, cols[d + k * dim]? = some col ∧ f col = .ok (o k) ∧ o k ≠ .stop) →
    (res.length = cols.length) →
    ∃ res', execCols f cols dim d c j res = .ok (true, res') ∧ res'.length = res.length ∧
      (∀ k, j ≤ k → k < j + c → res'[d + k * dim]? = some (kept (o k))) ∧
      ∀ i, (∀ k, j ≤ k → k < j + c → i ≠ d + k * dim) → res'[i]? = res[i]?
  | 0, j, res, _, _ => ⟨res, rfl, rfl, fun k h1 h2 => by omega, fun _ _ => rfl⟩
  | c + 1, j, res, hk, hl => by
    obtain ⟨col, h1, h2, h3⟩ := hk j le_rfl (by omega)
    have hlt : d + j * dim < res.length := by
      rw [hl]
      exact (List.getElem?_eq_some_iff.mp h1).1
    have e : execCols f cols dim d (c + 1) j res = execCols f cols dim d c (j + 1) (res.set (d + j * dim) (kept (o j))) := by
      rw [execCols]
      simp only [h1, h2, Res.bind]
      cases ho : o j with
      | num x => rfl
      | na => rfl
      | stop => exact absurd ho h3
    rw [e]
    obtain ⟨res', r1, r2, r3, r4⟩ := execCols_ok hd c (j + 1) (res.set (d + j * dim) (kept (o j)))
      (fun k h1 h2 => hk k (by omega) (by omega)) (by simpa using hl)
    refine ⟨res', r1, by simpa using r2, fun k hk1 hk2 => ?_, fun i hi => ?_⟩
    · by_cases hkj : k = j
      · subst hkj
        rw [r4 _ fun k' h1 h2 => ?_, List.getElem?_set_self hlt]
        have : k * dim < k' * dim := Nat.mul_lt_mul_of_pos_right (by omega) (by omega)
        omega
      · exact r3 k (by omega) (by omega)
    · rw [r4 i fun k h1 h2 => hi k (by omega) (by omega), List.getElem?_set_ne]
      exact (hi j le_rfl (by omega)).symm

/-- What a line shows in cell `d` of column `j`: the result of its formula, 0 when it has none. -/
def shown (cells : List (Option (Col → Res (Out K)))) (out : Nat → Nat → Out K) (d j : Nat) : Option K :=
  match cells[d]? with
  | some (some _) => kept (out d j)
  | _ => some 0

omit [LinearOrder K] [IsStrictOrderedRing K] in
theorem execCells_ok {cols : List Col} {dim n : Nat} {all : List (Option (Col → Res (Out K)))} {out : Nat → Nat → Out K} (hn : cols.length / dim = n)
    (hall : ∀ d f, all[d]? = some (some f) → d < dim ∧ ∀ k < n, ∃ col, cols[d + k * dim]? = some col ∧ f col = .ok (out d k) ∧ out d k ≠ .stop) :
    ∀ (cells : List (Option (Col → Res (Out K)))) (d0 : Nat) (res : List (Option K)), cells = all.drop d0 → d0 + cells.length = all.length →
    all.length = dim → res.length = cols.length →
    (∀ d k, d < dim → k < n → res[d + k * dim]? = some (if d < d0 then shown all out d k else some 0)) →
    ∃ res', execCells cols dim cells d0 res = .ok (true, res') ∧ res'.length = res.length ∧
      ∀ d k, d < dim → k < n → res'[d + k * dim]? = some (shown all out d k)
  | [], d0, res, hc, hlen, hdim, hl, hr => by
    refine ⟨res, rfl, rfl, fun d k hd hk => ?_⟩
    rw [hr d k hd hk, if_pos (by simp only [List.length_nil] at hlen; omega)]
  | none :: cells, d0, res, hc, hlen, hdim, hl, hr => by
    rw [execCells]
    have hg : all[d0]? = some none := by
      have := congrArg (fun l => l[0]?) hc
      simpa using this.symm
    refine execCells_ok hn hall cells (d0 + 1) res (by rw [← List.tail_drop, ← hc]; rfl)
      (by simp only [List.length_cons] at hlen; omega) hdim hl fun d k hd hk => ?_
    rw [hr d k hd hk]
    by_cases h1 : d < d0
    · rw [if_pos h1, if_pos (by omega)]
    · rw [if_neg h1]
      by_cases h2 : d = d0
      · subst h2
        rw [if_pos (by omega), shown, hg]
      · rw [if_neg (by omega)]
  | some f :: cells, d0, res, hc, hlen, hdim, hl, hr => by
    rw [execCells, hn]
    have hg : all[d0]? = some (some f) := by
      have := congrArg (fun l => l[0]?) hc
      simpa using this.symm
    obtain ⟨hd0, hf⟩ := hall d0 f hg
    obtain ⟨res', r1, r2, r3, r4⟩ := execCols_ok hd0 (o := out d0) n 0 res (fun k _ h2 => hf k (by omega)) hl
    rw [r1]
    simp only [Res.bind, if_true]
    obtain ⟨res'', q1, q2, q3⟩ := execCells_ok hn hall cells (d0 + 1) res' (by rw [← List.tail_drop, ← hc]; rfl)
      (by simp only [List.length_cons] at hlen; omega) hdim (r2.trans hl) fun d k hd hk => by
        by_cases h2 : d = d0
        · subst h2
          rw [r3 k (by omega) (by omega), if_pos (by omega), shown, hg]
        · rw [r4 _ fun k' _ hk' e => h2 ?_, hr d k hd hk]
          · by_cases h1 : d < d0
            · rw [if_pos h1, if_pos (by omega)]
            · rw [if_neg h1, if_neg (by omega)]
          · have e1 := congrArg (· % dim) e
            simp only [Nat.add_mul_mod_self_right] at e1
            rwa [Nat.mod_eq_of_lt hd, Nat.mod_eq_of_lt hd0] at e1
    exact ⟨res'', q1, q2.trans r2, q3⟩

omit [LinearOrder K] [IsStrictOrderedRing K] in
/-- **C59** A line of a table over a sample: cell `d` is shown once for every column `j` of the sample, at position `d + j * dim`, with
    the result of its formula for that column; cells without a formula are 0. -/
theorem C59_line {cols : List Col} {cells : List (Option (Col → Res (Out K)))} {out : Nat → Nat → Out K} (h0 : cells ≠ [])
    (h : ∀ d f, cells[d]? = some (some f) → ∀ j c, cols[j]? = some c → f c = .ok (out d j) ∧ out d j ≠ .stop) :
    ∃ res, execLine (resize cells.length cols) cells = .ok (true, res) ∧ res.length = cols.length * cells.length ∧
      ∀ d j, d < cells.length → j < cols.length → res[d + j * cells.length]? = some (shown cells out d j) := by
  have hpos : 0 < cells.length := List.length_pos_iff.mpr h0
  have hn : (resize cells.length cols).length / cells.length = cols.length := by
    rw [resize_length, Nat.mul_div_cancel _ hpos]
  obtain ⟨res, r1, r2, r3⟩ := execCells_ok (cols := resize cells.length cols) (dim := cells.length) (all := cells) (out := out) hn
    (fun d f hf => by
      have hd : d < cells.length := (List.getElem?_eq_some_iff.mp hf).1
      refine ⟨hd, fun k hk => ?_⟩
      obtain ⟨h1, h2⟩ := h d f hf k cols[k] (List.getElem?_eq_getElem hk)
      exact ⟨cols[k], by rw [resize_get _ _ _ _ hd, List.getElem?_eq_getElem hk], h1, h2⟩)
    cells 0 (List.replicate (resize cells.length cols).length (some 0)) rfl (by omega) rfl (by simp) fun d k hd hk => by
      rw [if_neg (by omega), List.getElem?_replicate, if_pos]
      rw [resize_length]
      calc d + k * cells.length < cells.length + k * cells.length := by omega
        _ = (k + 1) * cells.length := by rw [Nat.succ_mul, Nat.add_comm]
        _ ≤ cols.length * cells.length := Nat.mul_le_mul_right _ hk
  refine ⟨res, r1, ?_, r3⟩
  rw [r2, List.length_replicate, resize_length]

/-! ## Where the code does something else -/

/-- **C59** Mean growth from a value to one of the opposite sign: a number is shown, and it is not the mean growth (there is none). -/
theorem C59_opposite_counterexample (hp : Roots pow) {c : Col} {src : Int → Option (Source K)} {h : Bool} {s : Source K} {p : Period}
    {t0 t1 : Int} {a b : K} (ho : c.opf = none) (hf : 1 ≤ c.file ∧ c.file ≤ 5) (hs : Usable src h c.file s) (hop : c.opy = some (.mgrt, p))
    (h0 : c.per.difference s.start = .ok t0) (h1 : p.difference s.start = .ok t1) (hne : t0 ≠ t1) (ha : Shows s h t0 a)
    (hb : Shows s h t1 b) (hab : a / b < 0) :
    ∃ x, colCalc pow src h c = .ok (.num x) ∧ ¬ InFile c s h x := by
  have hb0 : b ≠ 0 := by rintro rfl; simp at hab
  obtain ⟨s1, s2, s3⟩ := hs
  have hz : ¬ (max t0 t1 - min t0 t1 = 0) := by omega
  refine ⟨-1 * 100 * (pow (-(a / b)) (1 / ((max t0 t1 - min t0 t1 : Int) : K)) - 1), ?_, ?_⟩
  · unfold colCalc oneFile
    rw [if_neg (by omega), s1]
    have hd : ¬ ((h && !s.divLinked) = true) := by
      cases h with
      | false => simp
      | true => simp [s3 rfl]
    simp only [s2, Bool.not_true, Bool.false_eq_true, if_false, if_neg hd, ho]
    unfold fileVal
    simp only [h0, Res.bind, (quot_iff s h t0 a).mpr ha, hop, h1, (quot_iff s h t1 b).mpr hb, periodOp, if_neg hz, if_neg hb0, if_pos hab]
  · rintro ⟨t0', h0', hx⟩
    rw [h0, Res.ok.injEq] at h0'
    subst h0'
    rw [hop] at hx
    obtain ⟨t1', h1', a', b', ha', hb', hx⟩ := hx
    rw [h1, Res.ok.injEq] at h1'
    subst h1'
    rw [shows_unique ha' ha, shows_unique hb' hb] at hx
    simp only [if_neg hne] at hx
    obtain ⟨-, hx1, hx2⟩ := hx
    have : (0 : K) ≤ a / b := by
      rw [← hx2, mul_div_cancel_left₀ _ hb0]
      exact pow_nonneg hx1 _
    exact absurd hab (not_lt.mpr this)

omit [IsStrictOrderedRing K] in
/-- **C59** When the divisor uses a variable that the file does not contain, the value is not missing: the line is given up. -/
theorem C59_divisor_counterexample (pow : K → K → K) {c : Col} {src : Int → Option (Source K)} {s : Source K}
    (hf : 1 ≤ c.file ∧ c.file ≤ 5) (h1 : src c.file = some s) (h2 : s.linked = true) (h3 : s.divLinked = false) :
    colCalc pow src true c = .ok .stop ∧
      execLine (resize 2 [c]) [none, some (colCalc pow src true)] = .ok (false, [some 0, some 0]) := by
  have e : colCalc pow src true c = .ok .stop := by
    unfold colCalc oneFile
    rw [if_neg (by omega), h1]
    simp [h2, h3]
  refine ⟨e, ?_⟩
  simp [execLine, execCells, resize, execCols, e, Res.bind]

omit [IsStrictOrderedRing K] in
/-- **C59** The sample `2000[7]` is accepted, and its column reads after the end of the array of files; so is `2000[1-0]`, which shows a value
    that was never computed. -/
theorem C59_number_counterexample (pow : K → K → K) (src : Int → Option (Source K)) (h : Bool) :
    (∃ c, compile [.num 2000, .obrack, .num 7, .cbrack] = .ok [c] ∧ colCalc pow src h c = .ub) ∧
    ∃ c, compile [.num 2000, .obrack, .num 1, .op .diff, .num 0, .cbrack] = .ok [c] ∧
      ∀ s x, Usable src h 1 s → InFile c s h x → colCalc pow src h c = .ub := by
  refine ⟨⟨⟨⟨2000, 1, 'Y'⟩, none, 7, none⟩, by decide +kernel, rfl⟩, ⟨⟨2000, 1, 'Y'⟩, none, 1, some (.diff, 0)⟩, by decide +kernel, ?_⟩
  rintro s x ⟨s1, s2, s3⟩ ⟨t0, h0, hx⟩
  unfold colCalc oneFile
  rw [if_neg (by decide), s1]
  have hd : ¬ ((h && !s.divLinked) = true) := by
    cases h with
    | false => simp
    | true => simp [s3 rfl]
  simp only [s2, Bool.not_true, Bool.false_eq_true, if_false, if_neg hd]
  unfold fileVal
  simp only at h0 hx
  simp only [h0, Res.bind, (quot_iff s h t0 x).mpr hx]
  simp

/-! ## Examples -/

/-- 1, 2, 4, 8, missing from 2000 on; the divisor is 2. -/
def demo : Source Rat := ⟨⟨2000, 1, 'Y'⟩, true, fun t => if 0 ≤ t ∧ t < 4 then some (2 ^ t.toNat) else none, true, fun _ => some 2⟩

/-- The same multiplied by 10, from 1999 on. -/
def demo2 : Source Rat := ⟨⟨1999, 1, 'Y'⟩, true, fun t => if 0 ≤ t ∧ t < 5 then some (10 * 2 ^ t.toNat) else none, true, fun _ => some 2⟩

def demoSrc : Int → Option (Source Rat) := fun f => if f = 1 then some demo else if f = 2 then some demo2 else none

def noPow : Rat → Rat → Rat := fun _ _ => 0

def y2000 : Period := ⟨2000, 1, 'Y'⟩
def y2001 : Period := ⟨2001, 1, 'Y'⟩
def y2002 : Period := ⟨2002, 1, 'Y'⟩
def y2004 : Period := ⟨2004, 1, 'Y'⟩

example : colCalc noPow demoSrc true ⟨y2002, none, 1, none⟩ = .ok (.num 2) := by decide +kernel
example : colCalc noPow demoSrc false ⟨y2002, some (.grt, y2001), 1, none⟩ = .ok (.num 100) := by decide +kernel
example : colCalc noPow demoSrc false ⟨y2002, some (.mdiff, y2000), 1, none⟩ = .ok (.num (3 / 2)) := by decide +kernel
example : colCalc noPow demoSrc true ⟨y2000, some (.add, y2002), 1, none⟩ = .ok (.num (7 / 2)) := by decide +kernel
example : colCalc noPow demoSrc false ⟨y2002, some (.mean, y2000), 1, none⟩ = .ok (.num (7 / 3)) := by decide +kernel
example : colCalc noPow demoSrc false ⟨y2004, none, 1, none⟩ = .ok .na := by decide +kernel
example : colCalc noPow demoSrc false ⟨y2002, none, 2, some (.base, 1)⟩ = .ok (.num 2000) := by decide +kernel
example : colCalc noPow demoSrc false ⟨y2002, none, 3, none⟩ = .ok .na := by decide +kernel

/-- The hypotheses of `C59_column` and `C59_files`. -/
example : ∀ g s, demoSrc g = some s → ColOk ⟨y2002, some (.grt, y2001), 1, none⟩ s false := by
  intro g s _ op p t0 t1 h1 _ _ h2
  rw [h2] at h1
  simp at h1

/-- The hypotheses of `C59_total`. -/
example : Fits ⟨y2002, some (.grt, y2001), 1, none⟩ demoSrc true 1 := by
  refine ⟨by decide, fun s hs => ?_⟩
  obtain rfl : demo = s := Option.some.inj hs
  refine ⟨fun _ => rfl, ⟨2, by decide⟩, ?_⟩
  rintro op p h
  simp only [Option.some.injEq, Prod.mk.injEq] at h
  exact ⟨1, by rw [← h.2]; decide⟩

/-- The hypotheses of `C59_line`. -/
example : execLine (resize 2 [⟨y2000, none, 1, none⟩, ⟨y2002, none, 1, none⟩]) [none, some (colCalc noPow demoSrc false)] =
    .ok (true, [some 0, some 1, some 0, some 4]) := by decide +kernel

/-- `pow` on the real numbers. -/
theorem rpow_roots : Roots (fun a b : ℝ => a ^ b) := by
  intro a n ha hn
  refine ⟨Real.rpow_nonneg ha _, ?_⟩
  simp only [one_div]
  exact Real.rpow_inv_natCast_pow ha hn.ne'

/-- From 1 in 2000 to -8 in 2002. -/
noncomputable def flip : Source ℝ := ⟨⟨2000, 1, 'Y'⟩, true, fun t => if t = 0 then some 1 else some (-8), true, fun _ => none⟩

/-- The hypotheses of `C59_opposite_counterexample`. -/
example : ∃ x, colCalc (fun a b : ℝ => a ^ b) (fun _ => some flip) false ⟨y2002, some (.mgrt, y2000), 1, none⟩ = .ok (.num x) ∧
    ¬ InFile ⟨y2002, some (.mgrt, y2000), 1, none⟩ flip false x :=
  C59_opposite_counterexample (p := y2000) (t0 := 2) (t1 := 0) (a := -8) (b := 1) rpow_roots rfl (by decide) ⟨rfl, rfl, fun h => by cases h⟩ rfl
    (show (y2002.difference y2000) = .ok 2 by decide) (show (y2000.difference y2000) = .ok 0 by decide) (by decide) ⟨-8, rfl, rfl⟩ ⟨1, rfl, rfl⟩
    (by norm_num)

/-- Mean growth. -/
example : Between (Shows demo false) .mgrt 2 0 100 := by
  refine ⟨4, 1, ⟨4, by decide +kernel, rfl⟩, ⟨1, by decide +kernel, rfl⟩, ?_⟩
  norm_num [steps]

end Iode.TblCalc
