import Verif.Model.Season
import Mathlib.Tactic.Ring
import Mathlib.Tactic.FieldSimp
import Mathlib.Tactic.Linarith
import Mathlib.Tactic.NormNum

/-! # Lemmas on the seasonal adjustment -/
set_option linter.unusedSectionVars false

namespace Iode.Season

variable {K : Type} [Field K]

theorem tot_congr : ∀ (n : Nat) {g h : Nat → K}, (∀ i, i < n → g i = h i) → tot n g = tot n h
  | 0, _, _, _ => rfl
  | n + 1, g, h, e => by
    simp only [tot]
    rw [tot_congr n (fun i hi => e i (by omega)), e n (by omega)]

theorem tot_mul (k : K) : ∀ (n : Nat) (g : Nat → K), tot n (fun i => k * g i) = k * tot n g
  | 0, _ => by simp [tot]
  | n + 1, g => by simp only [tot]; rw [tot_mul k n g]; ring

theorem tot_zero : ∀ (n : Nat) {g : Nat → K}, (∀ i, i < n → g i = 0) → tot n g = 0
  | 0, _, _ => rfl
  | n + 1, g, e => by simp only [tot]; rw [tot_zero n (fun i hi => e i (by omega)), e n (by omega), add_zero]

theorem tot_head : ∀ (n : Nat) (g : Nat → K), tot (n + 1) g = g 0 + tot n (fun i => g (i + 1))
  | 0, g => by simp [tot]
  | n + 1, g => by
    rw [tot, tot_head n g]
    simp only [tot]
    ring

/-- The sum over a whole year does not depend on where it starts. -/
theorem tot_period {n : Nat} (σ : Nat → K) : ∀ a, tot n (fun i => σ ((a + i) % n)) = tot n (fun i => σ (i % n))
  | 0 => by simp
  | a + 1 => by
    cases n with
    | zero => rfl
    | succ n =>
      rw [← tot_period σ a, tot_head n (fun i => σ ((a + i) % (n + 1))), tot]
      rw [show a + 1 + n = a + 0 + (n + 1) by omega, Nat.add_mod_right, add_comm]
      congr 1
      exact tot_congr n fun i _ => by rw [show a + 1 + i = a + (i + 1) by omega]

/-! ## Multiples -/

section
variable {k : K}

theorem trend_scale (n : Nat) (v : Nat → K) (f : Nat) : trend n (fun i => k * v i) f = k * trend n v f := by
  unfold trend
  rw [show (fun m => k * v (f - (n / 2 - 1) + m) / (n : K)) = fun m => k * (v (f - (n / 2 - 1) + m) / (n : K)) by
    funext m; ring, tot_mul]
  ring

theorem ratio_scale (hk : k ≠ 0) (n N : Nat) (v : Nat → K) : ratio n N (fun i => k * v i) = ratio n N v := by
  funext f
  unfold ratio
  rw [trend_scale, show 100 * (k * v f) = k * (100 * v f) by ring, mul_div_mul_left _ _ hk]

variable [LinearOrder K]

theorem factors1_scale (root : K → K) (hk : k ≠ 0) (n N : Nat) (v : Nat → K) :
    factors1 root n N (fun i => k * v i) = factors1 root n N v := by
  unfold factors1
  rw [ratio_scale hk]

theorem comp_scale (v b : Nat → K) : comp (fun i => k * v i) b = fun f => k * comp v b f := by
  funext f
  unfold comp
  ring

theorem ext7_scale (nb : Nat) (c : Nat → K) (i : Nat) : ext7 nb (fun f => k * c f) i = k * ext7 nb c i := by
  unfold ext7
  split
  · ring
  · split
    · rfl
    · ring

theorem spencer_scale (nb : Nat) (c : Nat → K) (f : Nat) : spencer nb (fun f => k * c f) f = k * spencer nb c f := by
  unfold spencer
  rw [← tot_mul]
  exact tot_congr 15 fun i _ => by rw [ext7_scale]; ring

theorem irreg_scale (hk : k ≠ 0) (nb : Nat) (c : Nat → K) : irreg nb (fun f => k * c f) = irreg nb c := by
  funext f
  unfold irreg
  rw [spencer_scale, show 100 * (k * c f) = k * (100 * c f) by ring, mul_div_mul_left _ _ hk]

theorem dsVec_scale (root : K → K) (hk : k ≠ 0) (n N : Nat) (shift : K) (v : Nat → K) :
    dsVec root n N (k * shift) (fun i => k * v i) =
      (dsVec root n N shift v).bind fun a => .ok ⟨fun f => k * a.vec f, fun f => k * a.c f, a.i, a.season⟩ := by
  unfold dsVec
  by_cases hN : N < 3
  · rw [if_pos hN, if_pos hN]; rfl
  · rw [if_neg hN, if_neg hN]
    simp only []
    rw [factors1_scale root hk, comp_scale v (factors1 root n N v), irreg_scale hk]
    have : (fun f => 100 * (k * v f) / spencer (n * N) (fun f => k * comp v (factors1 root n N v) f) f) =
        fun f => 100 * v f / spencer (n * N) (comp v (factors1 root n N v)) f := by
      funext f
      rw [spencer_scale, show 100 * (k * v f) = k * (100 * v f) by ring, mul_div_mul_left _ _ hk]
    rw [this, comp_scale, irreg_scale hk]
    show Res.ok _ = Res.ok _
    congr 2
    · funext f; ring
    · funext f; rw [spencer_scale]; ring

end

/-! ## A column without differences -/

theorem ext2_const {lo cnt : Nat} {c : Nat → K} [CharZero K] {a : K} (h2 : 2 ≤ cnt) (hc : ∀ j, lo ≤ j → j < lo + cnt → c j = a) (i : Nat) :
    ext2 lo cnt c i = a := by
  unfold ext2
  split
  · rw [hc lo (by omega) (by omega), hc (lo + 1) (by omega) (by omega)]; ring
  · split
    · exact hc _ (by omega) (by omega)
    · rw [hc (lo + cnt - 2) (by omega) (by omega), hc (lo + cnt - 1) (by omega) (by omega)]; ring

theorem ext7_const [CharZero K] {nb : Nat} {c : Nat → K} [LinearOrder K] {a : K} (h : 4 ≤ nb) (hc : ∀ j, j < nb → c j = a) (i : Nat) :
    ext7 nb c i = a := by
  unfold ext7
  split
  · rw [hc 0 (by omega), hc 1 (by omega), hc 2 (by omega), hc 3 (by omega)]; ring
  · split
    · exact hc _ (by omega)
    · rw [hc (nb - 1) (by omega), hc (nb - 2) (by omega), hc (nb - 3) (by omega), hc (nb - 4) (by omega)]; ring

section
variable [LinearOrder K] [IsStrictOrderedRing K]

theorem spencer_const {nb : Nat} {c : Nat → K} {a : K} (h : 4 ≤ nb) (hc : ∀ j, j < nb → c j = a) (f : Nat) : spencer nb c f = a := by
  unfold spencer
  rw [tot_congr 15 (h := fun i => w15 i / 320 * a) fun i _ => by rw [ext7_const h hc]]
  simp only [tot, w15, List.getD_cons_zero, List.getD_cons_succ]
  ring

theorem avg5_const {lo cnt : Nat} {c : Nat → K} {a : K} (h2 : 2 ≤ cnt) (hc : ∀ j, lo ≤ j → j < lo + cnt → c j = a) (j : Nat) :
    avg5 lo cnt c j = a := by
  unfold avg5
  simp only [tot, ext2_const h2 hc]
  ring

theorem clip_const (N : Nat) {m5 : Nat → K} {c : Nat → K} : ∀ (k j : Nat), (∀ i, j ≤ i → i < j + k → c i = m5 i) →
    clip N m5 0 k j c = c
  | 0, _, _ => rfl
  | k + 1, j, h => by
    unfold clip
    rw [h j (by omega) (by omega), sub_self, abs_zero, mul_zero, if_neg (lt_irrefl _)]
    exact clip_const N k (j + 1) fun i h1 h2 => h i (by omega) (by omega)

theorem clean_const {root : K → K} (hr : root 0 = 0) (N : Nat) {lo cnt : Nat} {c : Nat → K} {a : K} (h2 : 2 ≤ cnt)
    (hc : ∀ j, lo ≤ j → j < lo + cnt → c j = a) : clean root N lo cnt c = c := by
  have hd : dev root lo cnt c = 0 := by
    unfold dev
    rw [tot_zero cnt fun j hj => by rw [avg5_const h2 hc, hc _ (by omega) (by omega), sub_self, mul_zero], zero_mul, hr]
  unfold clean
  rw [hd]
  exact clip_const N cnt lo fun i h1 h3 => by rw [avg5_const h2 hc, hc i h1 h3]

theorem smooth5_const {n N : Nat} {b : Nat → K} {f : Nat} {a : K} (h2 : 2 ≤ N) (hc : ∀ j, j < N → b (n * j + f % n) = a) :
    smooth5 n N b f = a := by
  unfold smooth5
  have := ext2_const (lo := 0) (c := col n b (f % n)) h2 (fun j _ hj => hc j (by omega))
  simp only [tot, this, w5, List.getD_cons_zero, List.getD_cons_succ]
  ring

/-! ## A pure season -/

section
variable {n N h : Nat} {σ : Nat → K} {v : Nat → K} {c : K}

theorem trend_season (hn : n = 2 * h) (hh : 0 < h) (hs : tot n σ = (n : K)) (hv : ∀ f, f < n * N → v f = c * σ (f % n)) {f : Nat}
    (h1 : h ≤ f) (h2 : f + h < n * N) : trend n v f = c := by
  have hn2 : n / 2 = h := by omega
  have hnK : (n : K) ≠ 0 := Nat.cast_ne_zero.mpr (by omega)
  have hper := tot_period (n := n) σ (f - h)
  rw [tot_congr n (g := fun i => σ (i % n)) (h := σ) fun i hi => by rw [Nat.mod_eq_of_lt hi], hs] at hper
  obtain ⟨k, hk⟩ : ∃ k, n = k + 1 := ⟨n - 1, by omega⟩
  unfold trend
  rw [hn2, hv (f - h) (by omega), hv (f + h) h2, show (f + h) % n = (f - h) % n by
    rw [show f + h = f - h + n by omega, Nat.add_mod_right]]
  rw [tot_congr (n - 1) (h := fun m => c / (n : K) * σ ((f - h + (m + 1)) % n)) fun m hm => by
    rw [show f - (h - 1) + m = f - h + (m + 1) by omega, hv _ (by omega)]; ring, tot_mul]
  have hsum : σ ((f - h) % n) + tot (n - 1) (fun m => σ ((f - h + (m + 1)) % n)) = (n : K) := by
    rw [← hper]
    conv_rhs => rw [show (tot n : (Nat → K) → K) = tot (n - 1 + 1) by rw [show n - 1 + 1 = n by omega]]
    rw [tot_head]
    rfl
  rw [show tot (n - 1) (fun m => σ ((f - h + (m + 1)) % n)) = (n : K) - σ ((f - h) % n) by rw [← hsum]; ring]
  field_simp
  ring

theorem ratio_season (hn : n = 2 * h) (hh : 0 < h) (hs : tot n σ = (n : K)) (hv : ∀ f, f < n * N → v f = c * σ (f % n)) (hc : c ≠ 0) {f : Nat}
    (h1 : h ≤ f) (h2 : f + h < n * N) : ratio n N v f = 100 * σ (f % n) := by
  unfold ratio
  rw [if_pos (by omega), trend_season hn hh hs hv h1 h2, hv f (by omega)]
  field_simp

theorem norm_season (hn0 : 0 < n) (hs : tot n σ = (n : K)) {b : Nat → K} (hb : ∀ f, f < n * N → b f = 100 * σ (f % n)) {f : Nat}
    (hf : f < n * N) : norm n b f = 100 * σ (f % n) := by
  have hq : f / n < N := Nat.div_lt_of_lt_mul hf
  have hm : n * (f / n) + n ≤ n * N := by
    calc n * (f / n) + n = n * (f / n + 1) := by ring
      _ ≤ n * N := Nat.mul_le_mul_left _ hq
  unfold norm
  rw [hb f hf, tot_congr n (h := fun m => 100 * σ m) fun m hm' => by
    rw [hb _ (by omega), Nat.mul_add_mod, Nat.mod_eq_of_lt hm'], tot_mul, hs]
  ring

theorem smooth5_season (h2 : 2 ≤ N) (hn0 : 0 < n) {b : Nat → K} (hb : ∀ f, f < n * N → b f = 100 * σ (f % n)) (f : Nat) :
    smooth5 n N b f = 100 * σ (f % n) := by
  refine smooth5_const h2 fun j hj => ?_
  have hm : n * j + n ≤ n * N := by
    calc n * j + n = n * (j + 1) := by ring
      _ ≤ n * N := Nat.mul_le_mul_left _ hj
  have := Nat.mod_lt f hn0
  rw [hb _ (by omega), Nat.mul_add_mod, Nat.mod_mod]

theorem year_le {j : Nat} (hj : j < N) : n * j + n ≤ n * N := by
  calc n * j + n = n * (j + 1) := by ring
    _ ≤ n * N := Nat.mul_le_mul_left _ hj

theorem factors1_season {root : K → K} (hr : root 0 = 0) (hn : n = 2 * h) (hh : 0 < h) (hN : 3 ≤ N) (hs : tot n σ = (n : K))
    (hv : ∀ f, f < n * N → v f = c * σ (f % n)) (hc : c ≠ 0) (f : Nat) : factors1 root n N v f = 100 * σ (f % n) := by
  have hn2 : n / 2 = h := by omega
  have hNn : n * 3 ≤ n * N := Nat.mul_le_mul_left _ hN
  have hlast : n * (N - 1) + n = n * N := by
    obtain ⟨M, rfl⟩ : ∃ M, N = M + 1 := ⟨N - 1, by omega⟩
    rw [Nat.add_sub_cancel]; ring
  have hrat : ∀ f, h ≤ f → f + h < n * N → ratio n N v f = 100 * σ (f % n) := fun f => ratio_season hn hh hs hv hc
  have hclean : clean1 root n N (ratio n N v) = ratio n N v := by
    funext g
    have hlt := Nat.mod_lt g (show 0 < n by omega)
    have hg : n * (g / n) + g % n = g := Nat.div_add_mod g n
    unfold clean1
    rw [hn2]
    by_cases hm : g % n < h
    · rw [if_pos hm, clean_const hr N (a := 100 * σ (g % n)) (by omega) fun j h1 h2 => ?_]
      · show ratio n N v (n * (g / n) + g % n) = _
        rw [hg]
      · have h3 : n * 1 ≤ n * j := Nat.mul_le_mul_left _ h1
        have h4 : n * j ≤ n * (N - 1) := Nat.mul_le_mul_left _ (by omega)
        show ratio n N v (n * j + g % n) = _
        rw [hrat _ (by omega) (by omega), Nat.mul_add_mod, Nat.mod_mod]
    · rw [if_neg hm, clean_const hr N (a := 100 * σ (g % n)) (by omega) fun j h1 h2 => ?_]
      · show ratio n N v (n * (g / n) + g % n) = _
        rw [hg]
      · have h4 := year_le (n := n) (show j < N - 1 by omega)
        show ratio n N v (n * j + g % n) = _
        rw [hrat _ (by omega) (by omega), Nat.mul_add_mod, Nat.mod_mod]
  have hends : ∀ f, f < n * N → ends n N (ratio n N v) f = 100 * σ (f % n) := by
    intro f hf
    unfold ends
    rw [hn2]
    by_cases h1 : f < h
    · rw [if_pos h1, hrat _ (by omega) (by omega), Nat.add_mod_right]
    · rw [if_neg h1]
      by_cases h2 : n * N - h ≤ f
      · rw [if_pos h2, hrat _ (by omega) (by omega)]
        congr 2
        conv_rhs => rw [show f = f - n + n by omega, Nat.add_mod_right]
      · rw [if_neg h2, hrat _ (by omega) (by omega)]
  unfold factors1
  rw [hclean]
  exact smooth5_season (by omega) (by omega) (fun f hf => norm_season (by omega) hs hends hf) f

theorem factors2_season {root : K → K} (hr : root 0 = 0) (hn0 : 0 < n) (hN : 3 ≤ N) (hs : tot n σ = (n : K)) {d : K} (hd : d ≤ 2)
    {b : Nat → K} (hb : ∀ f, f < n * N → b f = 100 * σ (f % n)) (f : Nat) : factors2 root n N d b f = 100 * σ (f % n) := by
  unfold factors2
  rw [if_pos hd]
  refine smooth5_season (by omega) hn0 (fun f hf => norm_season hn0 hs (fun f hf => ?_) hf) f
  rw [clean_const hr N (a := 100 * σ (f % n)) (by omega) fun j _ hj => ?_]
  · show b (n * (f / n) + f % n) = _
    rw [Nat.div_add_mod, hb f hf]
  · have := year_le (n := n) (show j < N by omega)
    have := Nat.mod_lt f hn0
    show b (n * j + f % n) = _
    rw [hb _ (by omega), Nat.mul_add_mod, Nat.mod_mod]

theorem dsVec_season {root : K → K} (hr : root 0 = 0) (hn : n = 2 * h) (hh : 0 < h) (hN : 3 ≤ N) (hs : tot n σ = (n : K))
    (hσ : ∀ m, m < n → σ m ≠ 0) (hv : ∀ f, f < n * N → v f = c * σ (f % n)) (hc : c ≠ 0) (shift : K) :
    ∃ a, dsVec root n N shift v = .ok a ∧ (∀ f, f < n * N → a.vec f = c - shift ∧ a.c f = c - shift ∧ a.i f = 100) ∧
      ∀ m, m < n → a.season m = 100 * σ m := by
  have hNn : n * 3 ≤ n * N := Nat.mul_le_mul_left _ hN
  have hcomp : ∀ b : Nat → K, (∀ f, b f = 100 * σ (f % n)) → ∀ f, f < n * N → comp v b f = c := by
    intro b hb f hf
    have := hσ (f % n) (Nat.mod_lt _ (by omega))
    unfold comp
    rw [hb, hv f hf]
    field_simp
  unfold dsVec
  rw [if_neg (by omega)]
  simp only []
  have hc1 := hcomp _ (factors1_season hr hn hh hN hs hv hc)
  generalize comp v (factors1 root n N v) = c1 at hc1
  have hsp := spencer_const (show 4 ≤ n * N by omega) hc1
  have hirr : ∀ (a : Nat → K), (∀ f, f < n * N → a f = c) → ∀ f, f < n * N → irreg (n * N) a f = 100 := by
    intro a ha f hf
    unfold irreg
    rw [ha f hf, spencer_const (show 4 ≤ n * N by omega) ha]
    field_simp
  have hamp : ampl (n * N) (irreg (n * N) c1) ≤ 2 := by
    unfold ampl
    rw [tot_zero _ fun i hi => by rw [hirr c1 hc1 _ (by omega), hirr c1 hc1 _ (by omega), sub_self, abs_zero, zero_div]]
    norm_num
  have hb2 := factors2_season (root := root) hr (show 0 < n by omega) hN hs hamp
    (b := fun f => 100 * v f / spencer (n * N) c1 f) fun f hf => by
      rw [hsp, hv f hf]; field_simp
  generalize factors2 root n N (ampl (n * N) (irreg (n * N) c1)) (fun f => 100 * v f / spencer (n * N) c1 f) = b2 at hb2
  have hc2 := hcomp b2 hb2
  refine ⟨_, rfl, fun f hf => ⟨?_, ?_, ?_⟩, fun m hm => ?_⟩
  · show comp v b2 f - shift = _
    rw [hc2 f hf]
  · show spencer (n * N) (comp v b2) f - shift = _
    rw [spencer_const (by omega) hc2]
  · exact hirr _ hc2 f hf
  · show 1 / 2 * (3 * b2 (n * (N - 1) + m) - b2 (n * (N - 2) + m)) = _
    rw [hb2, hb2, Nat.mul_add_mod, Nat.mul_add_mod, Nat.mod_eq_of_lt hm]
    ring

end
end

end Iode.Season
