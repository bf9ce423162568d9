import Verif.Lemmas.Spline

/-!
# C80: spreading a series over sub-periods by cubic splines
-/
namespace Iode.Spline

open Iode.Convert (Kind)

variable {K : Type} [Field K]

/-! ## The second derivatives -/

section
variable [LinearOrder K] [IsStrictOrderedRing K]

theorem fwd_bounds (y : Nat → K) : ∀ i, -1 ≤ (fwd y i).1 ∧ (fwd y i).1 ≤ 0
  | 0 => by simp [fwd]
  | i + 1 => by
    obtain ⟨h1, h2⟩ := fwd_bounds y i
    simp only [fwd]
    have hp : (0 : K) < 1 / 2 * (fwd y i).1 + 2 := by linarith
    constructor
    · rw [le_div_iff₀ hp]; linarith
    · exact div_nonpos_of_nonpos_of_nonneg (by norm_num) hp.le

/-- The elimination: what a solution of the equations satisfies. -/
theorem fwd_step (y : Nat → K) {i : Nat} {a b c : K} (ha : a = (fwd y i).1 * b + (fwd y i).2) :
    b = (fwd y (i + 1)).1 * c + (fwd y (i + 1)).2 ↔ a + 4 * b + c = 6 * (y (i + 2) - 2 * y (i + 1) + y i) := by
  obtain ⟨h1, h2⟩ := fwd_bounds y i
  simp only [fwd]
  have hp : (0 : K) < 1 / 2 * (fwd y i).1 + 2 := by linarith
  rw [show ((1 : K) / 2 - 1) / (1 / 2 * (fwd y i).1 + 2) * c +
      (3 * (y (i + 2) - 2 * y (i + 1) + y i) - 1 / 2 * (fwd y i).2) / (1 / 2 * (fwd y i).1 + 2) =
      ((1 / 2 - 1) * c + (3 * (y (i + 2) - 2 * y (i + 1) + y i) - 1 / 2 * (fwd y i).2)) / (1 / 2 * (fwd y i).1 + 2) by ring,
    eq_div_iff hp.ne']
  constructor
  · intro h; rw [ha]; linarith
  · intro h; rw [ha] at h; linarith

/-- The second derivatives of a natural spline. -/
def curv (p : Nat → Cubic K) (m i : Nat) : K := if i < m then (p i).d2 0 else 0

omit [LinearOrder K] [IsStrictOrderedRing K] in
theorem natural_right {y : Nat → K} {m : Nat} {p : Nat → Cubic K} (h : Natural y m p) {i : Nat} (hi : i < m) :
    (p i).d2 1 = curv p m (i + 1) := by
  unfold curv
  by_cases hm : i + 1 < m
  · rw [if_pos hm]; exact h.curve i hm
  · rw [if_neg hm]; exact h.last i (by omega)

/-- A natural spline is known by the values and the second derivatives. -/
theorem natural_coeffs {y : Nat → K} {m : Nat} {p : Nat → Cubic K} (h : Natural y m p) {i : Nat} (hi : i < m) :
    (p i).c0 = y i ∧ (p i).c2 = curv p m i / 2 ∧ (p i).c3 = (curv p m (i + 1) - curv p m i) / 6 ∧
      (p i).c1 = y (i + 1) - y i - curv p m i / 2 - (curv p m (i + 1) - curv p m i) / 6 := by
  have h1 := h.left i hi
  have h2 := h.right i hi
  have h3 := natural_right h hi
  have h4 : curv p m i = (p i).d2 0 := if_pos hi
  simp only [Cubic.at, Cubic.d2] at h1 h2 h3 h4
  have e2 : (p i).c2 = curv p m i / 2 := by linarith
  have e3 : (p i).c3 = (curv p m (i + 1) - curv p m i) / 6 := by linarith
  exact ⟨by linarith, e2, e3, by linarith⟩

theorem natural_cub {y : Nat → K} {m : Nat} {p : Nat → Cubic K} (h : Natural y m p) {i : Nat} (hi : i < m) (s : K) :
    (p i).at s = cub y (curv p m) i s := by
  obtain ⟨e0, e2, e3, e1⟩ := natural_coeffs h hi
  unfold Cubic.at cub
  rw [e0, e1, e2, e3]
  ring

theorem natural_eqs {y : Nat → K} {m : Nat} {p : Nat → Cubic K} (h : Natural y m p) {i : Nat} (hi : i + 1 < m) :
    curv p m i + 4 * curv p m (i + 1) + curv p m (i + 2) = 6 * (y (i + 2) - 2 * y (i + 1) + y i) := by
  obtain ⟨a0, a2, a3, a1⟩ := natural_coeffs h (show i < m by omega)
  obtain ⟨b0, b2, b3, b1⟩ := natural_coeffs h hi
  have hs := h.slope i hi
  simp only [Cubic.d1] at hs
  rw [a1, a2, a3, b1] at hs
  rw [show i + 1 + 1 = i + 2 from rfl] at hs
  linarith

theorem natural_fwd {y : Nat → K} {m : Nat} {p : Nat → Cubic K} (h : Natural y m p) : ∀ i, i < m →
    curv p m i = (fwd y i).1 * curv p m (i + 1) + (fwd y i).2
  | 0, hi => by
    have h0 : curv p m 0 = 0 := by
      unfold curv; rw [if_pos hi]; exact h.first hi
    rw [h0]
    simp [fwd]
  | i + 1, hi => (fwd_step y (natural_fwd h i (by omega))).mpr (natural_eqs h hi)

theorem natural_bwd {y : Nat → K} {m : Nat} {p : Nat → Cubic K} (h : Natural y m p) : ∀ k, k ≤ m → curv p m (m - k) = bwd y m k
  | 0, _ => by unfold curv bwd; rw [if_neg (by omega)]
  | k + 1, hk => by
    rw [natural_fwd h (m - (k + 1)) (by omega), show m - (k + 1) + 1 = m - k by omega, natural_bwd h k (by omega)]
    rfl

/-- There is one natural spline through given points, whatever they are. -/
theorem C80_natural_exists (y : Nat → K) (m : Nat) : ∃ p, Natural y m p := by
  have hM : ∀ i, i < m → bwd y m (m - i) = (fwd y i).1 * bwd y m (m - (i + 1)) + (fwd y i).2 := by
    intro i hi
    rw [show m - i = (m - (i + 1)) + 1 by omega]
    simp only [bwd]
    rw [show m - (m - (i + 1) + 1) = i by omega]
  generalize hMM : (fun i => bwd y m (m - i)) = M
  have hM' : ∀ i, i < m → M i = (fwd y i).1 * M (i + 1) + (fwd y i).2 := by subst hMM; exact hM
  have hlast : M m = 0 := by subst hMM; simp [bwd]
  refine ⟨fun i => ⟨y i, y (i + 1) - y i - M i / 2 - (M (i + 1) - M i) / 6, M i / 2, (M (i + 1) - M i) / 6⟩, ?_⟩
  constructor
  · intro i _; simp [Cubic.at]
  · intro i _; simp only [Cubic.at]; ring
  · intro i hi
    have := (fwd_step y (hM' i (by omega))).mp (hM' (i + 1) hi)
    simp only [Cubic.d1]
    rw [show i + 1 + 1 = i + 2 from rfl] at *
    linarith
  · intro i _; simp only [Cubic.d2]; ring
  · intro h0
    have := hM' 0 h0
    simp only [fwd] at this
    simp only [Cubic.d2]
    linarith
  · intro i hi
    subst hi
    simp only [Cubic.d2]
    linarith

theorem C80_natural_unique {y : Nat → K} {m : Nat} {p q : Nat → Cubic K} (hp : Natural y m p) (hq : Natural y m q) {i : Nat} (hi : i < m) :
    p i = q i := by
  have hc : ∀ i, i ≤ m → curv p m i = curv q m i := by
    intro i hi
    have h1 := natural_bwd hp (m - i) (by omega)
    have h2 := natural_bwd hq (m - i) (by omega)
    rw [show m - (m - i) = i by omega] at h1 h2
    rw [h1, h2]
  obtain ⟨a0, a2, a3, a1⟩ := natural_coeffs hp hi
  obtain ⟨b0, b2, b3, b1⟩ := natural_coeffs hq hi
  rw [hc i (by omega), hc (i + 1) (by omega)] at *
  cases hpi : p i
  cases hqi : q i
  rw [hpi] at a0 a1 a2 a3
  rw [hqi] at b0 b1 b2 b3
  simp only [Cubic.mk.injEq]
  simp only at a0 a1 a2 a3 b0 b1 b2 b3
  exact ⟨by rw [a0, b0], by rw [a1, b1], by rw [a2, b2], by rw [a3, b3]⟩

end

/-! ## Runs -/

theorem firstRun_rounds {x : List (Option K)} {m : Nat} (h : FirstRun x m) : rounds x.tail = m := by
  obtain ⟨h1, h2, h3⟩ := h
  have hin := fun i hi => rounds_in x.tail i hi
  have hstop := rounds_stop x.tail
  have hk : ∀ i, Known x.tail i ↔ Known x (i + 1) := by
    intro i
    unfold Known
    rw [List.getElem?_tail]
  rw [List.length_tail] at hstop hin
  rcases Nat.lt_trichotomy (rounds x.tail) m with h | h | h
  · exact absurd ⟨(hk _).mpr (h1 _ (by omega)), by omega⟩ hstop
  · exact h
  · obtain ⟨⟨v, a⟩, b⟩ := hin m h
    rw [List.getElem?_tail] at a
    rcases h3 with h3 | h3
    · rw [h3] at a; cases a
    · omega

/-- A stock or a flow is always spread: nothing is read or written outside of the series. -/
theorem C80_defined (k : Kind) {s : Nat} (hs : 0 < s) (x : List (Option K)) {tn : Nat} (ht : x.length * s ≤ tn) :
    ∃ r, ltohCs k s tn x = .ok r ∧ r.length = tn := by
  obtain ⟨r, e1, e2, _⟩ := ltohCs_spec k hs x ht
  exact ⟨r, e1, e2⟩

/-- Which sub-periods of a flow stay missing. -/
theorem C80_flow_missing {s : Nat} (hs : 0 < s) (x : List (Option K)) {tn : Nat} (ht : x.length * s ≤ tn) {r : List (Option K)}
    (hr : ltohCs .flow s tn x = .ok r) {f j : Nat} (hj : j < s) (hf : f * s + j < tn)
    (h : ¬ (Known x f ∧ Known x (f + 1) ∧ f + 2 < x.length)) : r[f * s + j]? = some none := by
  obtain ⟨r', e1, _, _, e4⟩ := ltohCs_spec .flow hs x ht
  rw [e1] at hr; cases hr
  exact (e4 f).2 h j hj hf

/-- Which sub-periods of a stock stay missing. -/
theorem C80_stock_missing {s : Nat} (hs : 0 < s) (x : List (Option K)) {tn : Nat} (ht : x.length * s ≤ tn) {r : List (Option K)}
    (hr : ltohCs .stock s tn x = .ok r) {f j : Nat} (hj : j < s) (hf : f * s + j < tn)
    (h : f = 0 ∨ ¬ (Known x (f - 1) ∧ Known x f ∧ f + 1 < x.length)) : r[f * s + j]? = some none := by
  obtain ⟨r', e1, _, e3, e4⟩ := ltohCs_spec .stock hs x ht
  rw [e1] at hr; cases hr
  cases f with
  | zero => exact e3 _ (by simp only [off]; omega) hf
  | succ f =>
    have h' := h.resolve_left (by omega)
    exact (e4 f).2 (fun g => h' ⟨g.1, g.2.1, by have := g.2.2; omega⟩) j hj hf

/-! ## Flows -/

/-- The positions at which a flow is computed. -/
theorem flow_raw {s : Nat} {x : List (Option K)} {f : Nat} {y : List (Option K)} {y2 : Nat → K} (h : Ready .flow s x f y y2) {j : Nat}
    (hj : j < s) (hin : 0 < j ∨ (0 < f ∧ Known x (f - 1))) :
    raw s y y2 ((f * s + j : Nat) - 1) =
      some (cub (val y) y2 ((f * s + j - 1) / s) ((((f * s + j - 1) % s : Nat) : K) / (s : K))) := by
  obtain ⟨b, hb, hk, hb0, _⟩ := h.run
  have hpos : 1 ≤ f * s + j := by
    rcases hin with h | ⟨h, _⟩
    · omega
    · have := Nat.mul_le_mul_right s h
      omega
  have hlo : b ≤ (f * s + j - 1) / s ∧ (f * s + j - 1) / s ≤ f := by
    refine ⟨?_, Nat.le_trans (Nat.div_le_div_right (Nat.sub_le _ 1)) (Nat.le_of_eq (div_lt hj))⟩
    by_cases hj0 : 0 < j
    · rw [show f * s + j - 1 = f * s + (j - 1) by omega, div_lt (by omega)]; exact hb
    · obtain ⟨h0, hkn⟩ := hin.resolve_left hj0
      have : f - 1 ≤ (f * s + j - 1) / s := by
        refine (Nat.le_div_iff_mul_le (by omega)).mpr ?_
        rw [Nat.sub_mul, Nat.one_mul]
        omega
      rcases hb0 with hb0 | ⟨_, hb0⟩
      · omega
      · have : b ≠ f := by
          rintro rfl
          obtain ⟨v, hv⟩ := hkn
          rw [hb0] at hv; cases hv
        omega
  obtain ⟨v, _, hv⟩ := hk _ hlo.1 (by omega)
  obtain ⟨w, _, hw⟩ := hk ((f * s + j - 1) / s + 1) (by omega) (by omega)
  unfold raw
  rw [show ((f * s + j : Nat) : Int) - 1 = ((f * s + j - 1 : Nat) : Int) by omega, ycs_some s y2 hv hw]

theorem flow_blk {s : Nat} {x : List (Option K)} {f : Nat} {y : List (Option K)} {y2 : Nat → K} (h : Ready .flow s x f y y2)
    (hf : 0 < f) (hk : Known x (f - 1)) {j : Nat} (hj : j < s) :
    blk .flow s y y2 f j = some (cub (val y) y2 ((f * s + j - 1) / s) ((((f * s + j - 1) % s : Nat) : K) / (s : K)) +
      (val y f * (s : K) - ∑ i ∈ Finset.range s, cub (val y) y2 ((f * s + i - 1) / s) ((((f * s + i - 1) % s : Nat) : K) / (s : K)))
        / (s : K)) := by
  have hmap : (List.range' 0 s).map (fun i => raw s y y2 ((f * s + i : Nat) - 1)) =
      (List.range' 0 s).map (fun i => some (cub (val y) y2 ((f * s + i - 1) / s) ((((f * s + i - 1) % s : Nat) : K) / (s : K)))) := by
    apply List.map_congr_left
    intro i hi
    rw [List.mem_range'] at hi
    obtain ⟨i', h1, h2⟩ := hi
    exact flow_raw h (by omega) (.inr ⟨hf, hk⟩)
  unfold blk
  simp only []
  rw [hmap, fold_some (fun i => cub (val y) y2 ((f * s + i - 1) / s) ((((f * s + i - 1) % s : Nat) : K) / (s : K))) s 0 0]
  simp only []
  rw [flow_raw h hj (.inr ⟨hf, hk⟩), Nat.zero_add, zero_add, Finset.range_eq_Ico]
  rfl

/-- The sub-periods of a period of a flow have its value as their sum, when the periods before and behind are known and it is not
one of the last two. -/
theorem C80_flow_sum_partial [CharZero K] {s : Nat} (hs : 0 < s) (x : List (Option K)) {tn : Nat} (ht : x.length * s ≤ tn)
    {r : List (Option K)} (hr : ltohCs .flow s tn x = .ok r) {f : Nat} {v : K} (hf : 0 < f) (h1 : Known x (f - 1))
    (hv : x[f]? = some (some v)) (h2 : Known x (f + 1)) (h3 : f + 2 < x.length) :
    ∃ w : Nat → K, (∀ j, j < s → r[f * s + j]? = some (some (w j))) ∧ ∑ j ∈ Finset.range s, w j = v := by
  obtain ⟨r', e1, _, _, e4⟩ := ltohCs_spec .flow hs x ht
  rw [e1] at hr; cases hr
  obtain ⟨y, y2, hrd, hb⟩ := (e4 f).1 ⟨⟨v, hv⟩, h2, h3⟩
  have hsK : (s : K) ≠ 0 := Nat.cast_ne_zero.mpr (by omega)
  refine ⟨_, fun j hj => by rw [← flow_blk hrd hf h1 hj]; exact hb j hj, ?_⟩
  obtain ⟨b, hbf, hk, _, _⟩ := hrd.run
  obtain ⟨v', g1, g2⟩ := hk f hbf (by omega)
  rw [hv] at g1; cases g1
  have hval : val y f = v / (s : K) := by
    unfold val; rw [g2]; rfl
  rw [Finset.sum_add_distrib, Finset.sum_const, Finset.card_range, nsmul_eq_mul, hval]
  field_simp
  ring

/-- In the first period of every run of numbers of a flow the first sub-period is missing, the other ones are not. -/
theorem C80_flow_first {s : Nat} (hs : 0 < s) (x : List (Option K)) {tn : Nat} (ht : x.length * s ≤ tn)
    {r : List (Option K)} (hr : ltohCs .flow s tn x = .ok r) {f : Nat} (h0 : f = 0 ∨ x[f - 1]? = some none) (h1 : Known x f)
    (h2 : Known x (f + 1)) (h3 : f + 2 < x.length) :
    r[f * s]? = some none ∧ ∀ j, 0 < j → j < s → ∃ w, r[f * s + j]? = some (some w) := by
  obtain ⟨r', e1, _, _, e4⟩ := ltohCs_spec .flow hs x ht
  rw [e1] at hr; cases hr
  obtain ⟨y, y2, hrd, hb⟩ := (e4 f).1 ⟨h1, h2, h3⟩
  obtain ⟨b, hbf, hk, hb0, _⟩ := hrd.run
  have hbeq : b = f := by
    rcases h0 with h0 | h0
    · omega
    · by_contra hne
      obtain ⟨v, hv, _⟩ := hk (f - 1) (by omega) (by omega)
      rw [h0] at hv; cases hv
  subst hbeq
  have hraw0 : raw s y y2 ((b * s + 0 : Nat) - 1) = none := by
    unfold raw
    rcases Nat.eq_zero_or_pos b with hz | hz
    · subst hz
      rw [Nat.zero_mul]
      rfl
    · obtain ⟨g1, _⟩ := hb0.resolve_left (by omega)
      have hms := Nat.mul_le_mul_right s hz
      have hdiv : (b * s - 1) / s = b - 1 := by
        obtain ⟨c, rfl⟩ : ∃ c, b = c + 1 := ⟨b - 1, by omega⟩
        rw [Nat.add_mul, Nat.one_mul, show c * s + s - 1 = c * s + (s - 1) by omega, div_lt (by omega), Nat.add_sub_cancel]
      rw [show ((b * s + 0 : Nat) : Int) - 1 = ((b * s - 1 : Nat) : Int) by omega, ycs_none_left s y2 (by rw [hdiv]; exact g1)]
  have hfold : ((List.range' 0 s).map fun i => raw s y y2 ((b * s + i : Nat) - 1)).foldl addTo (some 0) = none := by
    apply fold_miss
    rw [List.mem_map]
    exact ⟨0, by rw [List.mem_range']; exact ⟨0, hs, by omega⟩, hraw0⟩
  have hblk : ∀ j, blk .flow s y y2 b j = raw s y y2 ((b * s + j : Nat) - 1) := by
    intro j
    unfold blk
    simp only []
    rw [hfold]
  refine ⟨?_, fun j j0 hj => ?_⟩
  · have := hb 0 hs
    rw [hblk, hraw0] at this
    exact this
  · have := hb j hj
    rw [hblk, flow_raw hrd hj (.inl j0)] at this
    exact ⟨_, this⟩

/-! ## Stocks -/

theorem stock_raw {s : Nat} {x : List (Option K)} {y2 : Nat → K} {k : Nat} (h1 : Known x (k / s)) (h2 : Known x (k / s + 1)) :
    raw s x y2 (k : Nat) = some (cub (val x) y2 (k / s) (((k % s : Nat) : K) / (s : K))) := by
  obtain ⟨v, hv⟩ := h1
  obtain ⟨w, hw⟩ := h2
  unfold raw
  rw [ycs_some s y2 hv hw]

/-- The last sub-period of a period of a stock has its value, when the periods before and behind are known; the other ones are known. -/
theorem C80_stock_value_partial {s : Nat} (hs : 0 < s) (x : List (Option K)) {tn : Nat} (ht : x.length * s ≤ tn)
    {r : List (Option K)} (hr : ltohCs .stock s tn x = .ok r) {f : Nat} {v : K} (hf : 0 < f) (h1 : Known x (f - 1))
    (hv : x[f]? = some (some v)) (h2 : Known x (f + 1)) :
    r[f * s + (s - 1)]? = some (some v) ∧ ∀ j, j < s → ∃ w, r[f * s + j]? = some (some w) := by
  obtain ⟨r', e1, _, _, e4⟩ := ltohCs_spec .stock hs x ht
  rw [e1] at hr; cases hr
  obtain ⟨g, rfl⟩ : ∃ g, f = g + 1 := ⟨f - 1, by omega⟩
  rw [Nat.add_sub_cancel] at h1
  obtain ⟨y, y2, hrd, hb⟩ := (e4 g).1 ⟨h1, ⟨v, hv⟩, by have := h2.lt; omega⟩
  have hyx := hrd.stock rfl
  subst hyx
  constructor
  · have h := hb (s - 1) (by omega)
    have hk : g * s + (s - 1) + 1 = (g + 1) * s := by rw [Nat.add_mul, Nat.one_mul]; omega
    have hdiv : (g + 1) * s / s = g + 1 := Nat.mul_div_cancel _ hs
    have hmod : (g + 1) * s % s = 0 := Nat.mul_mod_left _ _
    rw [show off .stock s g = (g + 1) * s from rfl] at h
    rw [h]
    show some (raw s y y2 (g * s + (s - 1) + 1 : Nat)) = _
    rw [hk, stock_raw (by rw [hdiv]; exact ⟨v, hv⟩) (by rw [hdiv]; exact h2), hdiv, hmod]
    have hval : val y (g + 1) = v := by unfold val; rw [hv]; rfl
    unfold cub
    rw [hval]
    simp
  · intro j hj
    have h := hb j hj
    rw [show off .stock s g = (g + 1) * s from rfl] at h
    have hkn : ∀ i, g ≤ i → i ≤ g + 2 → Known y i := by
      intro i i1 i2
      rcases Nat.lt_trichotomy i (g + 1) with h | h | h
      · rw [show i = g by omega]; exact h1
      · rw [h]; exact ⟨v, hv⟩
      · rw [show i = g + 1 + 1 by omega]; exact h2
    have d1 : g ≤ (g * s + j + 1) / s := (Nat.le_div_iff_mul_le hs).mpr (by omega)
    have d2 : (g * s + j + 1) / s ≤ g + 1 := by
      refine Nat.le_of_lt_succ (Nat.div_lt_of_lt_mul ?_)
      have : s * (g + 1).succ = g * s + s + s := by rw [Nat.succ_eq_add_one]; ring
      omega
    rw [show blk .stock s y y2 g j = raw s y y2 (g * s + j + 1 : Nat) from rfl,
      stock_raw (hkn _ d1 (by omega)) (hkn _ (by omega) (by omega))] at h
    exact ⟨_, h⟩

/-- When the period behind is missing the last sub-period is missing too. -/
theorem C80_stock_end {s : Nat} (hs : 0 < s) (x : List (Option K)) {tn : Nat} (ht : x.length * s ≤ tn)
    {r : List (Option K)} (hr : ltohCs .stock s tn x = .ok r) {f : Nat} (hf : 0 < f) (h1 : Known x (f - 1)) (hv : Known x f)
    (h2 : x[f + 1]? = some none) :
    r[f * s + (s - 1)]? = some none ∧ ∀ j, j + 1 < s → ∃ w, r[f * s + j]? = some (some w) := by
  obtain ⟨r', e1, _, _, e4⟩ := ltohCs_spec .stock hs x ht
  rw [e1] at hr; cases hr
  obtain ⟨g, rfl⟩ : ∃ g, f = g + 1 := ⟨f - 1, by omega⟩
  rw [Nat.add_sub_cancel] at h1
  have hlt : g + 2 < x.length := by
    rcases Nat.lt_or_ge (g + 2) x.length with h | h
    · exact h
    · rw [List.getElem?_eq_none (by omega)] at h2; cases h2
  obtain ⟨y, y2, hrd, hb⟩ := (e4 g).1 ⟨h1, hv, hlt⟩
  have hyx := hrd.stock rfl
  subst hyx
  constructor
  · have h := hb (s - 1) (by omega)
    have hk : g * s + (s - 1) + 1 = (g + 1) * s := by rw [Nat.add_mul, Nat.one_mul]; omega
    have hdiv : (g + 1) * s / s = g + 1 := Nat.mul_div_cancel _ hs
    rw [show off .stock s g = (g + 1) * s from rfl] at h
    rw [h]
    show some (raw s y y2 (g * s + (s - 1) + 1 : Nat)) = _
    rw [hk]
    unfold raw ycs
    rw [if_neg (by omega)]
    simp only [Int.toNat_natCast, hdiv]
    obtain ⟨v, hv⟩ := hv
    unfold Iode.Convert.get
    rw [hv]
    simp only [bindOk]
    rw [h2]
    rfl
  · intro j hj
    have h := hb j (by omega)
    rw [show off .stock s g = (g + 1) * s from rfl] at h
    have hdiv : (g * s + j + 1) / s = g := by rw [Nat.add_assoc, div_lt hj]
    rw [show blk .stock s y y2 g j = raw s y y2 (g * s + j + 1 : Nat) from rfl,
      stock_raw (by rw [hdiv]; exact h1) (by rw [hdiv]; exact hv)] at h
    exact ⟨_, h⟩

/-! ## The curve -/

section
variable [LinearOrder K] [IsStrictOrderedRing K]

/-- In the first run of a series the second derivatives are those of the natural spline. -/
theorem first_cub {x : List (Option K)} {m : Nat} {p : Nat → Cubic K} (hp : Natural (val x) m p) (hm : rounds x.tail = m) {z : Nat → K}
    {i : Nat} (hi : i < m) (b : K) : cub (val x) (y2cs x z).2 i b = (p i).at b := by
  rw [natural_cub hp hi]
  have h : ∀ i, i ≤ m → (y2cs x z).2 i = curv p m i := by
    intro i hi
    show (if i ≤ rounds x.tail then bwd (val x) (rounds x.tail) (rounds x.tail - i) else z i) = _
    rw [hm, if_pos hi]
    have := natural_bwd hp (m - i) (by omega)
    rw [show m - (m - i) = i by omega] at this
    exact this.symm
  unfold cub
  rw [h i (by omega), h (i + 1) (by omega)]

theorem ready_first {k : Kind} {s : Nat} {x : List (Option K)} {m f : Nat} {y : List (Option K)} {y2 : Nat → K} (h : Ready k s x f y y2)
    (hm : FirstRun x m) (hf : f < m) : y = sck k s 0 x ∧ y2 = (y2cs y (fun _ => 0)).2 := by
  obtain ⟨b, hbf, hk, hb0, hb⟩ := h.run
  have : b = 0 := by
    rcases hb0 with h | ⟨_, h⟩
    · exact h
    · obtain ⟨v, hv⟩ := hm.1 (b - 1) (by omega)
      rw [h] at hv; cases hv
  exact ⟨(hb this).1, (hb this).2.1⟩

/-- A stock that is known from its first period on is spread along the natural spline through its values. -/
theorem C80_stock_curve {s : Nat} (hs : 0 < s) (x : List (Option K)) {tn : Nat} (ht : x.length * s ≤ tn)
    {r : List (Option K)} (hr : ltohCs .stock s tn x = .ok r) {m : Nat} (hm : FirstRun x m) {y : Nat → K}
    (hy : ∀ i, i ≤ m → x[i]? = some (some (y i))) {p : Nat → Cubic K} (hp : Natural y m p) {k : Nat} (hk1 : 0 < k) (hk2 : k < m * s) :
    r[s + (k - 1)]? = some (some ((p (k / s)).at (((k % s : Nat) : K) / (s : K)))) := by
  obtain ⟨r', e1, _, _, e4⟩ := ltohCs_spec .stock hs x ht
  rw [e1] at hr; cases hr
  have hq : k / s < m := Nat.div_lt_of_lt_mul (by rw [Nat.mul_comm]; exact hk2)
  have hf : (k - 1) / s < m := Nat.lt_of_le_of_lt (Nat.div_le_div_right (Nat.sub_le _ 1)) hq
  have hdm : (k - 1) / s * s + (k - 1) % s = k - 1 := by rw [Nat.mul_comm]; exact Nat.div_add_mod _ _
  obtain ⟨x', y2, hrd, hb⟩ := (e4 ((k - 1) / s)).1 ⟨hm.1 _ (by omega), hm.1 _ (by omega), by have := hm.2.1; omega⟩
  obtain ⟨g1, g2⟩ := ready_first hrd hm hf
  have hx' : x' = x := hrd.stock rfl
  subst hx'
  have h := hb ((k - 1) % s) (Nat.mod_lt _ hs)
  rw [show off .stock s ((k - 1) / s) = (k - 1) / s * s + s by simp only [off]; rw [Nat.add_mul, Nat.one_mul]] at h
  rw [show s + (k - 1) = (k - 1) / s * s + s + (k - 1) % s by omega, h]
  show some (raw s x' y2 ((k - 1) / s * s + (k - 1) % s + 1 : Nat)) = _
  rw [hdm, show k - 1 + 1 = k by omega, stock_raw (hm.1 _ (by omega)) (hm.1 _ (by omega)), g2]
  have hp' : Natural (val x') m p := by
    have hv : ∀ i, i ≤ m → val x' i = y i := fun i hi => by unfold val; rw [hy i hi]; rfl
    exact ⟨fun i hi => by rw [hv i (by omega)]; exact hp.left i hi, fun i hi => by rw [hv (i + 1) (by omega)]; exact hp.right i hi,
      hp.slope, hp.curve, hp.first, hp.last⟩
  rw [first_cub hp' (firstRun_rounds hm) hq]

/-- A flow that is known from its first period on follows, up to a constant in every period, the natural spline through its values
divided by the number of sub-periods. -/
theorem C80_flow_curve {s : Nat} (hs : 0 < s) (x : List (Option K)) {tn : Nat} (ht : x.length * s ≤ tn)
    {r : List (Option K)} (hr : ltohCs .flow s tn x = .ok r) {m : Nat} (hm : FirstRun x m) {y : Nat → K}
    (hy : ∀ i, i ≤ m → x[i]? = some (some (y i))) {p : Nat → Cubic K} (hp : Natural (fun i => y i / (s : K)) m p) {f : Nat} (hf1 : 0 < f)
    (hf2 : f < m) :
    ∃ d, ∀ j, j < s → r[f * s + j]? = some (some ((p ((f * s + j - 1) / s)).at ((((f * s + j - 1) % s : Nat) : K) / (s : K)) + d)) := by
  obtain ⟨r', e1, _, _, e4⟩ := ltohCs_spec .flow hs x ht
  rw [e1] at hr; cases hr
  obtain ⟨x', y2, hrd, hb⟩ := (e4 f).1 ⟨hm.1 _ (by omega), hm.1 _ (by omega), by have := hm.2.1; omega⟩
  obtain ⟨g1, g2⟩ := ready_first hrd hm hf2
  have hkn : ∀ i, i ≤ m → x'[i]? = some (some (y i / (s : K))) := by
    intro i hi
    rw [g1]
    exact sck_known .flow s x (by omega) (fun j _ hj => hm.1 j (by omega)) (hy i hi)
  have hp' : Natural (val x') m p := by
    have hv : ∀ i, i ≤ m → val x' i = y i / (s : K) := fun i hi => by unfold val; rw [hkn i hi]; rfl
    exact ⟨fun i hi => by rw [hv i (by omega)]; exact hp.left i hi, fun i hi => by rw [hv (i + 1) (by omega)]; exact hp.right i hi,
      hp.slope, hp.curve, hp.first, hp.last⟩
  have hround : rounds x'.tail = m := by
    obtain ⟨v, hv⟩ := hm.1 0 (by omega)
    have := sck_rounds .flow s (beg := 0) hv
    rw [← g1, List.drop_zero, Nat.zero_add, List.drop_one, firstRun_rounds hm] at this
    exact this
  refine ⟨(val x' f * (s : K) - ∑ i ∈ Finset.range s, cub (val x') y2 ((f * s + i - 1) / s) ((((f * s + i - 1) % s : Nat) : K) / (s : K)))
        / (s : K), fun j hj => ?_⟩
  have h := hb j hj
  have hle : (f * s + j - 1) / s ≤ f := Nat.le_trans (Nat.div_le_div_right (Nat.sub_le _ 1)) (Nat.le_of_eq (div_lt hj))
  rw [flow_blk hrd hf1 (hm.1 _ (by omega)) hj] at h
  rw [← first_cub hp' hround (z := fun _ => 0) (by omega : (f * s + j - 1) / s < m), ← g2]
  exact h

end

/-! ## Examples -/

/-- A stock of five years by quarter. -/
example : ltohCs .stock 4 20 [some 0, some 1, some 0, some 1, some (5 : Rat)] =
    .ok [none, none, none, none, some (13/32), some (3/4), some (31/32), some 1, some (13/16), some (1/2), some (3/16), some 0, some (1/32),
      some (1/4), some (19/32), some 1, none, none, none, none] := by decide +kernel


/-- The same one as a flow: the quarters of the second and of the third year have their values as sums. -/
example : ltohCs .flow 4 20 [some 0, some 1, some 0, some 1, some (5 : Rat)] =
    .ok [none, some 0, some (13/128), some (3/16), some (147/512), some (151/512), some (127/512), some (87/512), some (9/512),
      some (-15/512), some (-11/512), some (17/512), none, none, none, none, none, none, none, none] := by decide +kernel

/-- The hypotheses of the theorems, for the second year. -/
example : ∃ w : Nat → Rat, (∀ j, j < 4 → [none, some 0, some (13/128), some (3/16), some (147/512), some (151/512), some (127/512),
      some (87/512), some (9/512), some (-15/512), some (-11/512), some (17/512), none, none, none, none, none, none, none, none][1 * 4 + j]? =
      some (some (w j))) ∧ ∑ j ∈ Finset.range 4, w j = 1 :=
  C80_flow_sum_partial (by decide) [some 0, some 1, some 0, some 1, some (5 : Rat)] (tn := 20) (by decide) (by decide +kernel) (by decide)
    ⟨0, rfl⟩ rfl ⟨0, rfl⟩ (by decide)

example : FirstRun [some 0, some 1, some 0, some 1, some (5 : Rat)] 3 :=
  ⟨fun i hi => by
    match i, hi with
    | 0, _ => exact ⟨0, rfl⟩
    | 1, _ => exact ⟨1, rfl⟩
    | 2, _ => exact ⟨0, rfl⟩
    | 3, _ => exact ⟨1, rfl⟩, by decide, .inr rfl⟩

/-- The natural spline through `0, 1, 0`. -/
example : Natural (fun i => if i = 1 then (1 : Rat) else 0) 2 (fun i => if i = 0 then ⟨0, 3/2, 0, -1/2⟩ else ⟨1, 0, -3/2, 1/2⟩) := by
  constructor
  · intro i hi
    match i, hi with
    | 0, _ => decide +kernel
    | 1, _ => decide +kernel
  · intro i hi
    match i, hi with
    | 0, _ => decide +kernel
    | 1, _ => decide +kernel
  · intro i hi
    match i, hi with
    | 0, _ => decide +kernel
  · intro i hi
    match i, hi with
    | 0, _ => decide +kernel
  · intro _
    decide +kernel
  · intro i hi
    match i, hi with
    | 1, _ => decide +kernel

/-! ## What is lost -/

/-- Four known years of a flow: the first half of the first one is missing, as are the last two years. -/
theorem C80_flow_counterexample : ltohCs .flow 2 8 [some 2, some 4, some 2, some (4 : Rat)] =
    .ok [none, some 1, some (59/32), some (69/32), none, none, none, none] := by decide +kernel

/-- Four known years of a stock: the first and the last one are missing. -/
theorem C80_stock_counterexample : ltohCs .stock 2 8 [some 0, some 1, some 0, some (1 : Rat)] =
    .ok [none, none, some (11/16), some 1, some (11/16), some 0, none, none] := by decide +kernel

/-- The same values one year later are spread otherwise: the second derivatives are read one position too far, they are not those of the
spline. -/
theorem C80_gap_counterexample : ltohCs .stock 2 10 [none, some 0, some 1, some 0, some (1 : Rat)] =
    .ok [none, none, none, none, some (11/16), some 1, some (1/2), some 0, none, none] := by decide +kernel

end Iode.Spline
