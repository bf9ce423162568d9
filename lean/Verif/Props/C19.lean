import Verif.Props.C17

/-!
# C19  A variables file restores its sample

The sample is stored as the bytes of the struct in the 64-byte field `k_data` of the header, and restored only if the first
byte, the low byte of the start year, is not zero. The claim is thus false for start years that are multiples of 256
(`C19_lost`); `C19_sample_partial` is every other sample.
-/
namespace Iode
namespace BinFile

/-- A sample whose fields fit their C types: years and steps in a `long` of `W` bytes, the number of periods in a `short`. -/
structure SampleFits (W : Nat) (s : Sample) : Prop where
  year1 : -(256 ^ W : Int) ≤ 2 * s.start.year ∧ 2 * s.start.year < 256 ^ W
  step1 : -(256 ^ W : Int) ≤ 2 * s.start.step ∧ 2 * s.start.step < 256 ^ W
  per1 : s.start.periodicity.toNat < 256
  year2 : -(256 ^ W : Int) ≤ 2 * s.stop.year ∧ 2 * s.stop.year < 256 ^ W
  step2 : -(256 ^ W : Int) ≤ 2 * s.stop.step ∧ 2 * s.stop.step < 256 ^ W
  per2 : s.stop.periodicity.toNat < 256
  nb : -32768 ≤ s.nb ∧ s.nb < 32768

theorem putPeriod_length (W : Nat) (junk : List Byte) (p : Period) :
    (putPeriod W junk p).length = 2 * W + 1 + junk.length := by
  simp [putPeriod, putWord_length]; omega

theorem drop_length_append {l r : List Byte} {n : Nat} (h : n = l.length) : (l ++ r).drop n = r := by
  subst h; simp

theorem getPeriod_putPeriod (W : Nat) (junk r : List Byte) (p : Period)
    (h1 : -(256 ^ W : Int) ≤ 2 * p.year ∧ 2 * p.year < 256 ^ W)
    (h2 : -(256 ^ W : Int) ≤ 2 * p.step ∧ 2 * p.step < 256 ^ W) (h3 : p.periodicity.toNat < 256) :
    getPeriod W (putPeriod W junk p ++ r) = p := by
  unfold getPeriod putPeriod
  have hd : (putWord W p.year ++ putWord W p.step ++ [toByte p.periodicity] ++ junk ++ r).drop W =
      putWord W p.step ++ ([toByte p.periodicity] ++ junk ++ r) := by
    simp only [List.append_assoc]
    exact drop_length_append (putWord_length W _).symm
  have hg : (putWord W p.year ++ putWord W p.step ++ [toByte p.periodicity] ++ junk ++ r).getD (2 * W) 0 =
      toByte p.periodicity := by
    have hl : (putWord W p.year ++ putWord W p.step).length = 2 * W := by simp [putWord_length]; omega
    rw [List.append_assoc, List.append_assoc, List.getD_eq_getElem?_getD, ← hl, List.getElem?_append_right (by omega)]
    simp
  rw [hd, hg, getWord_putWord W _ h2.1 h2.2]
  simp only [List.append_assoc]
  rw [getWord_putWord W _ h1.1 h1.2]
  cases p with
  | mk y st c =>
    simp only [toByte] at h3 ⊢
    rw [Nat.mod_eq_of_lt h3, Char.ofNat_toNat]

theorem getSample_putSample (W : Nat) (junk r : List Byte) (s : Sample) (hf : SampleFits W s) :
    getSample W (2 * W + 1 + junk.length) (putSample W junk s ++ r) = s := by
  unfold getSample putSample
  have hl1 := putPeriod_length W junk s.start
  have hl2 := putPeriod_length W junk s.stop
  have h1 : (putPeriod W junk s.start ++ putPeriod W junk s.stop ++ putWord 2 s.nb ++ junk.take 2 ++ r).drop
      (2 * W + 1 + junk.length) = putPeriod W junk s.stop ++ (putWord 2 s.nb ++ junk.take 2 ++ r) := by
    simp only [List.append_assoc]
    exact drop_length_append hl1.symm
  have h2 : (putPeriod W junk s.start ++ putPeriod W junk s.stop ++ putWord 2 s.nb ++ junk.take 2 ++ r).drop
      (2 * (2 * W + 1 + junk.length)) = putWord 2 s.nb ++ (junk.take 2 ++ r) := by
    rw [List.append_assoc, List.append_assoc]
    exact drop_length_append (by rw [List.length_append]; omega)
  rw [h1, h2, getPeriod_putPeriod W junk _ _ hf.year2 hf.step2 hf.per2]
  simp only [List.append_assoc]
  rw [getPeriod_putPeriod W junk _ _ hf.year1 hf.step1 hf.per1, getWord_putWord 2 _ (by have := hf.nb.1; omega)
    (by have := hf.nb.2; omega)]

/-- The first byte of the field is the low byte of the start year. -/
theorem first_byte {W : Nat} (hW : 0 < W) (junk : List Byte) (s : Sample) :
    (((predump W junk (some s)).getD 0 0).val : Int) = s.start.year % 256 := by
  have h0 : ∀ r, (putWord W s.start.year ++ r).getD 0 0 =
      Pack.wr (fun _ => 0) 0 (s.start.year % 256 ^ W).toNat W 0 := by
    intro r
    rw [List.getD_eq_getElem?_getD, List.getElem?_append_left (by rw [putWord_length]; omega)]
    simp [putWord, Pack.bytes, hW]
  simp only [predump, putSample, putPeriod, List.append_assoc, h0, Pack.wr]
  rw [if_pos (by omega)]
  simp only [Nat.sub_zero, Nat.pow_zero, Nat.div_one]
  have hp := pow_pos' W
  have hnn := Int.emod_nonneg s.start.year (Int.ne_of_gt hp)
  rw [Int.natCast_emod, Int.toNat_of_nonneg hnn]
  apply Int.emod_emod_of_dvd
  cases W with
  | zero => omega
  | succ w => exact ⟨256 ^ w, Int.pow_succ' 256 w⟩

/-- **C19** (partial). A sample whose start year is not a multiple of 256 is restored by loading what saving has put in the
    header, whatever the padding bytes. Missing: the other years, for which the claim is false (`C19_lost`). -/
theorem C19_sample_partial {W : Nat} (hW : 0 < W) (junk : List Byte) (s : Sample) (hf : SampleFits W s)
    (hy : s.start.year % 256 ≠ 0) :
    preload W (2 * W + 1 + junk.length) (predump W junk (some s)) = some s := by
  have hb := first_byte hW junk s
  unfold preload
  rw [if_pos (by intro h; rw [h] at hb; exact hy hb.symm)]
  unfold predump
  exact congrArg some (getSample_putSample W junk _ s hf)

/-- The field is large enough: nothing is written beyond its 64 bytes, on both word sizes. -/
theorem C19_room (W : Nat) (hW : W = 4 ∨ W = 8) (junk : List Byte) (hj : junk.length = W - 1) (s : Option Sample) :
    (predump W junk s).length = 64 := by
  cases s with
  | none => simp [predump]
  | some s =>
    have : (putSample W junk s).length ≤ 64 := by
      simp only [putSample, List.length_append, putPeriod_length, putWord_length, List.length_take]
      omega
    simp only [predump, List.length_append, List.length_replicate]
    omega

/-- A workspace saved without a sample is loaded without a sample. -/
theorem C19_none (W P : Nat) (junk : List Byte) : preload W P (predump W junk none) = none := rfl

/-- A sample that starts in a year that is a multiple of 256 is lost. -/
theorem C19_lost {W : Nat} (hW : 0 < W) (junk : List Byte) (s : Sample) (hy : s.start.year % 256 = 0) (P : Nat) :
    preload W P (predump W junk (some s)) = none := by
  have hb := first_byte hW junk s
  unfold preload
  rw [if_neg (by rw [hy] at hb; omega)]

def smp2000 : Sample := ⟨⟨2000, 3, 'Q'⟩, ⟨2010, 4, 'Q'⟩, 42⟩
def smp2048 : Sample := ⟨⟨2048, 1, 'Y'⟩, ⟨2060, 1, 'Y'⟩, 13⟩

example : preload 8 24 (predump 8 [1, 2, 3, 4, 5, 6, 7] (some smp2000)) = some smp2000 :=
  C19_sample_partial (by decide) [1, 2, 3, 4, 5, 6, 7] smp2000
    ⟨by decide, by decide, by decide, by decide, by decide, by decide, by decide⟩ (by decide)

/-- The sample 2048Y1 to 2060Y1 is not restored. -/
theorem C19_counterexample : preload 8 24 (predump 8 [0, 0, 0, 0, 0, 0, 0] (some smp2048)) ≠ some smp2048 := by
  rw [C19_lost (by decide) _ _ (by decide)]; simp

end BinFile
end Iode
