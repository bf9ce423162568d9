import Verif.Props.C83

/-!
# C84: files converted to another character set keep their text

`oem` and `ansi` tell which character a byte stands for in code page 850 and in Windows-1252, `utf8` which bytes stand for a character in UTF-8. A
text is `Plain` when it has ASCII and the letters of the languages around here.
-/

namespace Iode.FileCmd

open Iode.Args (Text)
open DataCmd (Out)
open Written

/-! ## The table made by the program -/

/-- The last entry of the first table that gives a code. -/
def oemAt : Nat → Nat → Nat → Option Nat
  | 0, _, _ => none
  | k + 1, i, x =>
    match oemAt k (i + 1) x with
    | some v => some v
    | none => if x = ansiTbl.getD i 0 - 128 then some (i + 128) else none

theorem oemTbl_at : ∀ (k i : Nat) (t : Nat → Nat) (x : Nat), oemTbl k i t x = (oemAt k i x).getD (t x)
  | 0, _, _, _ => rfl
  | k + 1, i, t, x => by
    rw [oemTbl, oemTbl_at k (i + 1), oemAt]
    cases h : oemAt k (i + 1) x with
    | some v => rfl
    | none =>
      simp only [Option.getD_none]
      split <;> rfl

/-- `ansiToOem`, without the memory when it is not used. -/
def ansiOem (b : Nat) : Option Nat := if b < 128 then some b else oemAt 128 0 (b - 128)

theorem ansiToOem_eq (junk : Nat → Nat) (b : Nat) : ansiToOem junk b = (ansiOem b).getD (junk (b - 128)) := by
  rw [ansiToOem, ansiOem]
  split
  · rfl
  · exact oemTbl_at ..

/-! ## What holds of each byte -/

/-- All bytes a file may have. -/
theorem byte_cases {P : Nat → Prop} (h : ∀ b ∈ List.range 256, P b) {b : Nat} (hb : b < 256) : P b := h b (List.mem_range.mpr hb)

theorem utf8_oem {b : Nat} (hb : b < 256) (h : (0 < oem b ∧ oem b < 128) ∨ oem b ∈ letters) : utf8Char oemUtf8 b = utf8 (oem b) :=
  byte_cases (P := fun b => ((0 < oem b ∧ oem b < 128) ∨ oem b ∈ letters) → utf8Char oemUtf8 b = utf8 (oem b)) (by decide +kernel) hb h

theorem utf8_ansi {b : Nat} (hb : b < 256) (h : (0 < b ∧ b < 128) ∨ 176 ≤ b) : utf8Char ansiUtf8 b = utf8 (ansi b) :=
  byte_cases (P := fun b => ((0 < b ∧ b < 128) ∨ 176 ≤ b) → utf8Char ansiUtf8 b = utf8 (ansi b)) (by decide +kernel) hb h

theorem ansi_letters {b : Nat} (hb : b < 256) (h : (0 < ansi b ∧ ansi b < 128) ∨ ansi b ∈ letters) : (0 < b ∧ b < 128) ∨ 176 ≤ b :=
  byte_cases (P := fun b => ((0 < ansi b ∧ ansi b < 128) ∨ ansi b ∈ letters) → (0 < b ∧ b < 128) ∨ 176 ≤ b) (by decide +kernel) hb h

theorem ansi_oem {b : Nat} (hb : b < 256) (h : (0 < oem b ∧ oem b < 128) ∨ oem b ∈ letters) : ansi (oemToAnsi b) = oem b :=
  byte_cases (P := fun b => ((0 < oem b ∧ oem b < 128) ∨ oem b ∈ letters) → ansi (oemToAnsi b) = oem b) (by decide +kernel) hb h

theorem oem_ansi (junk : Nat → Nat) {b : Nat} (hb : b < 256) (h : (0 < ansi b ∧ ansi b < 128) ∨ ansi b ∈ letters) (h' : ansi b ∉ [192, 193, 194]) :
    oem (ansiToOem junk b) = ansi b := by
  have := byte_cases (P := fun b => ((0 < ansi b ∧ ansi b < 128) ∨ ansi b ∈ letters) → ansi b ∉ [192, 193, 194] → ∃ v, ansiOem b = some v ∧ oem v = ansi b)
  obtain ⟨v, h1, h2⟩ := this (fun b hb => by
    have hd : ∀ b ∈ List.range 256, ((0 < ansi b ∧ ansi b < 128) ∨ ansi b ∈ letters) → ansi b ∉ [192, 193, 194] → (ansiOem b).map oem = some (ansi b) := by
      decide +kernel
    intro h h'
    have := hd b hb h h'
    rw [Option.map_eq_some_iff] at this
    exact this) hb h h'
  rw [ansiToOem_eq, h1]
  exact h2

/-- The bytes code page 850 has twice in the table of the program. -/
def twice : List Nat := [176, 180, 181, 182, 183, 191, 192, 193, 194, 195, 196, 197, 198, 199, 200, 204, 206, 207, 223]

/-- The bytes of Windows-1252 that are not in the table of the program. -/
def absent : List Nat := [133, 134, 135, 136, 141, 142, 143, 144, 145, 152, 159, 174, 180, 182, 208, 240, 245, 248, 254]

theorem oem_back (junk : Nat → Nat) {b : Nat} (hb : b < 256) (h : b ∉ twice) : ansiToOem junk (oemToAnsi b) = b := by
  have := byte_cases (P := fun b => b ∉ twice → ansiOem (oemToAnsi b) = some b) (by decide +kernel) hb h
  rw [ansiToOem_eq, this]
  rfl

theorem ansi_back (junk : Nat → Nat) {b : Nat} (hb : b < 256) (h : b ∉ absent) : oemToAnsi (ansiToOem junk b) = b := by
  have hd := byte_cases (P := fun b => b ∉ absent → (ansiOem b).map oemToAnsi = some b) (by decide +kernel) hb h
  rw [Option.map_eq_some_iff] at hd
  obtain ⟨v, h1, h2⟩ := hd
  rw [ansiToOem_eq, h1]
  exact h2

theorem map_eq {f : Nat → Nat} {c : Bytes} (h : ∀ b ∈ c, f b = b) : c.map f = c := by
  induction c with
  | nil => rfl
  | cons b r ih => rw [List.map_cons, h b (by simp), ih fun x hx => h x (by simp [hx])]

theorem flatMap_eq {f g : Nat → Bytes} {c : Bytes} (h : ∀ b ∈ c, f b = g b) : c.flatMap f = c.flatMap g := by
  induction c with
  | nil => rfl
  | cons b r ih => rw [List.flatMap_cons, List.flatMap_cons, h b (by simp), ih fun x hx => h x (by simp [hx])]

/-! ## The commands -/

section Commands

variable {W : Args.World} {may : Text → Bool} {junk : Nat → Nat} {d : Disk} {arg : Text} {i o : Text} {c : Bytes}

theorem convert_done {f : Nat → Nat} (hw : Expand.words [' '] arg = [i, o]) (hd : d i = some c) (hio : i ≠ o) (hm : may o = true) :
    sysConvert may f arg d = .done (d.set o (some (c.map f))) := by
  rw [sysConvert, cut_words, hw]
  simp only [hd]
  rw [if_neg (by rw [hm]; simp), set_other hio, hd]
  rfl

theorem utf8_done {tbl : List Bytes} (hw : Expand.words [' '] arg = [i, o]) (hd : d i = some c) (hio : i ≠ o) (hm : may o = true) :
    sysUtf8 may tbl arg d = .done (d.set o (some ([239, 187, 191] ++ c.flatMap (utf8Char tbl)))) := by
  rw [sysUtf8, cut_words, hw]
  simp only [hd]
  rw [if_neg (by rw [hm]; simp), set_other hio, hd]
  rfl

/-- `$SysOemToUTF8` of a plain text: the mark of UTF-8 files, then the text in UTF-8. -/
theorem C84_oem_utf8_partial (hw : Expand.words [' '] arg = [i, o]) (hd : d i = some c) (hio : i ≠ o) (hm : may o = true) (hb : ∀ b ∈ c, b < 256)
    (hp : Plain (c.map oem)) : ∃ d', run W may junk .oemToUtf8 arg d = .done d' ∧ d' o = some (utf8 65279 ++ (c.map oem).flatMap utf8) ∧
      ∀ q, q ≠ o → d' q = d q := by
  refine ⟨_, utf8_done hw hd hio hm, ?_, fun q hq => set_other hq⟩
  rw [set_same, List.flatMap_map, show utf8 65279 = [239, 187, 191] by decide]
  exact congrArg _ (congrArg _ (flatMap_eq fun b h => utf8_oem (hb b h) (hp _ (List.mem_map_of_mem h))))

/-- `$SysAnsiToUTF8` of a file with ASCII characters and bytes from 176 on, so of each plain text. -/
theorem C84_ansi_utf8_partial (hw : Expand.words [' '] arg = [i, o]) (hd : d i = some c) (hio : i ≠ o) (hm : may o = true) (hb : ∀ b ∈ c, b < 256)
    (hp : (∀ b ∈ c, (0 < b ∧ b < 128) ∨ 176 ≤ b) ∨ Plain (c.map ansi)) :
    ∃ d', run W may junk .ansiToUtf8 arg d = .done d' ∧ d' o = some (utf8 65279 ++ (c.map ansi).flatMap utf8) ∧ ∀ q, q ≠ o → d' q = d q := by
  have hp : ∀ b ∈ c, (0 < b ∧ b < 128) ∨ 176 ≤ b := hp.elim id fun h b hbc => ansi_letters (hb b hbc) (h _ (List.mem_map_of_mem hbc))
  refine ⟨_, utf8_done hw hd hio hm, ?_, fun q hq => set_other hq⟩
  rw [set_same, List.flatMap_map, show utf8 65279 = [239, 187, 191] by decide]
  exact congrArg _ (congrArg _ (flatMap_eq fun b h => utf8_ansi (hb b h) (hp _ h)))

/-- `$SysOemToAnsi` of a plain text. -/
theorem C84_oem_ansi_partial (hw : Expand.words [' '] arg = [i, o]) (hd : d i = some c) (hio : i ≠ o) (hm : may o = true) (hb : ∀ b ∈ c, b < 256)
    (hp : Plain (c.map oem)) :
    ∃ d' c', run W may junk .oemToAnsi arg d = .done d' ∧ d' o = some c' ∧ c'.map ansi = c.map oem ∧ ∀ q, q ≠ o → d' q = d q := by
  refine ⟨_, c.map oemToAnsi, convert_done hw hd hio hm, set_same .., ?_, fun q hq => set_other hq⟩
  rw [List.map_map]
  exact List.map_congr_left fun b h => ansi_oem (hb b h) (hp _ (List.mem_map_of_mem h))

/-- `$SysAnsiToOem` of a plain text without À, Á and Â. -/
theorem C84_ansi_oem_partial (hw : Expand.words [' '] arg = [i, o]) (hd : d i = some c) (hio : i ≠ o) (hm : may o = true) (hb : ∀ b ∈ c, b < 256)
    (hp : Plain (c.map ansi)) (hp' : ∀ x ∈ c.map ansi, x ∉ [192, 193, 194]) :
    ∃ d' c', run W may junk .ansiToOem arg d = .done d' ∧ d' o = some c' ∧ c'.map oem = c.map ansi ∧ ∀ q, q ≠ o → d' q = d q := by
  refine ⟨_, c.map (ansiToOem junk), convert_done hw hd hio hm, set_same .., ?_, fun q hq => set_other hq⟩
  rw [List.map_map]
  exact List.map_congr_left fun b h => oem_ansi junk (hb b h) (hp _ (List.mem_map_of_mem h)) (hp' _ (List.mem_map_of_mem h))

/-- À and Á become characters that frame tables (╗ and ╝), Â the sign for cents. -/
theorem C84_ansi_oem_counterexample (hw : Expand.words [' '] arg = [i, o]) (hd : d i = some [192, 193, 194]) (hio : i ≠ o) (hm : may o = true) :
    ∃ d' c', run W may junk .ansiToOem arg d = .done d' ∧ d' o = some c' ∧ c'.map oem = [9559, 9565, 162] := by
  refine ⟨_, _, convert_done hw hd hio hm, set_same .., ?_⟩
  simp only [List.map_cons, List.map_nil, ansiToOem_eq, show ansiOem 192 = some 187 by decide +kernel, show ansiOem 193 = some 188 by decide +kernel,
    show ansiOem 194 = some 189 by decide +kernel, Option.getD_some]
  decide

/-- The bytes of Windows-1252 that the table of the program lacks become whatever was in memory. -/
theorem C84_ansi_oem_undefined {b : Nat} (hb : b ∈ absent) (v : Nat) (hw : Expand.words [' '] arg = [i, o]) (hd : d i = some [b]) (hio : i ≠ o)
    (hm : may o = true) : ∃ junk d', run W may junk .ansiToOem arg d = .done d' ∧ d' o = some [v] := by
  refine ⟨fun _ => v, _, convert_done hw hd hio hm, ?_⟩
  rw [set_same, List.map_cons, ansiToOem_eq, (show ∀ b ∈ absent, ansiOem b = none by decide +kernel) b hb]
  rfl

/-- To Windows-1252 and back: the file is the same, if none of its bytes is in `twice`. -/
theorem C84_oem_back_partial {arg' p : Text} (hw : Expand.words [' '] arg = [i, o]) (hw' : Expand.words [' '] arg' = [o, p]) (hd : d i = some c)
    (hio : i ≠ o) (hop : o ≠ p) (hm : may o = true) (hm' : may p = true) (hb : ∀ b ∈ c, b < 256 ∧ b ∉ twice) :
    ∃ d' d'', run W may junk .oemToAnsi arg d = .done d' ∧ run W may junk .ansiToOem arg' d' = .done d'' ∧ d'' p = some c := by
  refine ⟨_, _, convert_done hw hd hio hm, convert_done hw' (set_same ..) hop hm', ?_⟩
  rw [set_same, List.map_map]
  exact congrArg _ (map_eq fun b h => oem_back junk (hb b h).1 (hb b h).2)

/-- To code page 850 and back: the file is the same, if none of its bytes is in `absent`. -/
theorem C84_ansi_back_partial {arg' p : Text} (hw : Expand.words [' '] arg = [i, o]) (hw' : Expand.words [' '] arg' = [o, p]) (hd : d i = some c)
    (hio : i ≠ o) (hop : o ≠ p) (hm : may o = true) (hm' : may p = true) (hb : ∀ b ∈ c, b < 256 ∧ b ∉ absent) :
    ∃ d' d'', run W may junk .ansiToOem arg d = .done d' ∧ run W may junk .oemToAnsi arg' d' = .done d'' ∧ d'' p = some c := by
  refine ⟨_, _, convert_done hw hd hio hm, convert_done hw' (set_same ..) hop hm', ?_⟩
  rw [set_same, List.map_map]
  exact congrArg _ (map_eq fun b h => ansi_back junk (hb b h).1 (hb b h).2)

/-- A byte of code page 850 that is in `twice` does not come back. -/
theorem C84_back_counterexample {arg' p : Text} {b : Nat} (hb : b ∈ twice) (hw : Expand.words [' '] arg = [i, o]) (hw' : Expand.words [' '] arg' = [o, p])
    (hd : d i = some [b]) (hio : i ≠ o) (hop : o ≠ p) (hm : may o = true) (hm' : may p = true) :
    ∃ d' d'', run W may junk .oemToAnsi arg d = .done d' ∧ run W may junk .ansiToOem arg' d' = .done d'' ∧ d'' p ≠ some [b] := by
  refine ⟨_, _, convert_done hw hd hio hm, convert_done hw' (set_same ..) hop hm', ?_⟩
  rw [set_same]
  have h := (show ∀ b ∈ twice, ∃ v ∈ List.range 256, ansiOem (oemToAnsi b) = some v ∧ v ≠ b by decide +kernel) b hb
  obtain ⟨v, -, h1, h2⟩ := h
  simpa [ansiToOem_eq, h1] using h2

/-- A file in ASCII is the same in all these character sets. -/
theorem C84_ascii (hw : Expand.words [' '] arg = [i, o]) (hd : d i = some c) (hio : i ≠ o) (hm : may o = true) (hb : ∀ b ∈ c, 0 < b ∧ b < 128) :
    (∀ k, k = .ansiToOem ∨ k = .oemToAnsi → ∃ d', run W may junk k arg d = .done d' ∧ d' o = some c) ∧
      ∀ k, k = .ansiToUtf8 ∨ k = .oemToUtf8 → ∃ d', run W may junk k arg d = .done d' ∧ d' o = some (utf8 65279 ++ c) := by
  have hu : ∀ tbl, c.flatMap (utf8Char tbl) = c := fun tbl => by
    rw [flatMap_eq (g := fun b => [b])]
    · exact List.flatMap_singleton' c
    · intro b h
      have := hb b h
      rw [utf8Char, if_neg (by omega), if_neg (by omega)]
  refine ⟨?_, ?_⟩
  · rintro k (rfl | rfl)
    · exact ⟨_, convert_done hw hd hio hm, (set_same ..).trans (congrArg _ (map_eq fun b h => if_pos (hb b h).2))⟩
    · exact ⟨_, convert_done hw hd hio hm, (set_same ..).trans (congrArg _ (map_eq fun b h => if_pos (hb b h).2))⟩
  · rintro k (rfl | rfl)
    · exact ⟨_, utf8_done hw hd hio hm, (set_same ..).trans (by rw [hu]; rfl)⟩
    · exact ⟨_, utf8_done hw hd hio hm, (set_same ..).trans (by rw [hu]; rfl)⟩

/-- The sign for the euro becomes the sign that ends a proof. -/
theorem C84_euro_counterexample (hw : Expand.words [' '] arg = [i, o]) (hd : d i = some [128]) (hio : i ≠ o) (hm : may o = true) :
    ∃ d', run W may junk .ansiToUtf8 arg d = .done d' ∧ ansi 128 = 8364 ∧ d' o = some (utf8 65279 ++ utf8 8718) :=
  ⟨_, utf8_done hw hd hio hm, by decide, (set_same ..).trans (by decide +kernel)⟩

/-- The byte 149, a bullet in Windows-1252, gives a file that is not in UTF-8. -/
theorem C84_bullet_counterexample (hw : Expand.words [' '] arg = [i, o]) (hd : d i = some [149]) (hio : i ≠ o) (hm : may o = true) :
    ∃ d' c', run W may junk .ansiToUtf8 arg d = .done d' ∧ d' o = some (utf8 65279 ++ c') ∧ ∀ t : List Nat, t.flatMap utf8 ≠ c' := by
  refine ⟨_, [195, 242], utf8_done hw hd hio hm, (set_same ..).trans (by decide +kernel), ?_⟩
  intro t h
  cases t with
  | nil => simp at h
  | cons a r =>
    rw [List.flatMap_cons, utf8] at h
    split at h
    · simp at h
      omega
    · split at h
      · simp at h
        omega
      · simp at h

/-- ª in code page 850 (166) becomes §, and ¬ (170) is lost. -/
theorem C84_oem_utf8_counterexample (hw : Expand.words [' '] arg = [i, o]) (hd : d i = some [166, 170]) (hio : i ≠ o) (hm : may o = true) :
    ∃ d', run W may junk .oemToUtf8 arg d = .done d' ∧ [166, 170].map oem = [170, 172] ∧ d' o = some (utf8 65279 ++ utf8 167) :=
  ⟨_, utf8_done hw hd hio hm, by decide, (set_same ..).trans (by decide +kernel)⟩

/-- A file converted onto itself is empty, or only has the mark, and the command tells that all went well. -/
theorem C84_itself_counterexample (hw : Expand.words [' '] arg = [i, i]) (hd : d i = some c) (hm : may i = true) :
    (∀ k, k = .ansiToOem ∨ k = .oemToAnsi → ∃ d', run W may junk k arg d = .done d' ∧ d' i = some []) ∧
      ∀ k, k = .ansiToUtf8 ∨ k = .oemToUtf8 → ∃ d', run W may junk k arg d = .done d' ∧ d' i = some (utf8 65279) := by
  have h1 : ∀ f, sysConvert may f arg d = .done (d.set i (some [])) := fun f => by
    rw [sysConvert, cut_words, hw]
    simp only [hd]
    rw [if_neg (by rw [hm]; simp), set_same]
    rfl
  have h2 : ∀ tbl, sysUtf8 may tbl arg d = .done (d.set i (some (utf8 65279))) := fun tbl => by
    rw [sysUtf8, cut_words, hw]
    simp only [hd]
    rw [if_neg (by rw [hm]; simp), set_same]
    rfl
  refine ⟨?_, ?_⟩
  · rintro k (rfl | rfl)
    exacts [⟨_, h1 _, set_same ..⟩, ⟨_, h1 _, set_same ..⟩]
  · rintro k (rfl | rfl)
    exacts [⟨_, h2 _, set_same ..⟩, ⟨_, h2 _, set_same ..⟩]

end Commands

/-! ## Examples -/

/-- `été à` in code page 850 and `Ça` in Windows-1252. -/
def exTexts : Disk := fun p => if p = ['e'] then some [130, 116, 130, 32, 133] else if p = ['c'] then some [199, 97] else none

example : ∃ d', run exWorld (fun _ => true) id .oemToUtf8 "e x".toList exTexts = .done d' ∧
    d' ['x'] = some (utf8 65279 ++ [195, 169, 116, 195, 169, 32, 195, 160]) ∧ ∀ q, q ≠ ['x'] → d' q = exTexts q :=
  C84_oem_utf8_partial (i := ['e']) (c := [130, 116, 130, 32, 133]) (by decide +kernel) rfl (by decide) rfl (by decide) (by unfold Plain; decide)

example : ∃ d', run exWorld (fun _ => true) id .ansiToUtf8 "c x".toList exTexts = .done d' ∧
    d' ['x'] = some (utf8 65279 ++ [195, 135, 97]) ∧ ∀ q, q ≠ ['x'] → d' q = exTexts q :=
  C84_ansi_utf8_partial (i := ['c']) (c := [199, 97]) (by decide +kernel) rfl (by decide) rfl (by decide) (.inr (by unfold Plain; decide))

example : ∃ d' c', run exWorld (fun _ => true) id .oemToAnsi "e x".toList exTexts = .done d' ∧ d' ['x'] = some c' ∧ c'.map ansi = [233, 116, 233, 32, 224] ∧
    ∀ q, q ≠ ['x'] → d' q = exTexts q :=
  C84_oem_ansi_partial (i := ['e']) (c := [130, 116, 130, 32, 133]) (by decide +kernel) rfl (by decide) rfl (by decide) (by unfold Plain; decide)

example : ∃ d' c', run exWorld (fun _ => true) id .ansiToOem "c x".toList exTexts = .done d' ∧ d' ['x'] = some c' ∧ c'.map oem = [199, 97] ∧
    ∀ q, q ≠ ['x'] → d' q = exTexts q :=
  C84_ansi_oem_partial (i := ['c']) (c := [199, 97]) (by decide +kernel) rfl (by decide) rfl (by decide) (by unfold Plain; decide) (by decide)

example : ∃ d' d'', run exWorld (fun _ => true) id .oemToAnsi "e x".toList exTexts = .done d' ∧
    run exWorld (fun _ => true) id .ansiToOem "x y".toList d' = .done d'' ∧ d'' ['y'] = some [130, 116, 130, 32, 133] :=
  C84_oem_back_partial (i := ['e']) (o := ['x']) (p := ['y']) (by decide +kernel) (by decide +kernel) rfl (by decide) (by decide) rfl rfl (by decide)

example : ∃ d' d'', run exWorld (fun _ => true) id .ansiToOem "c x".toList exTexts = .done d' ∧
    run exWorld (fun _ => true) id .oemToAnsi "x y".toList d' = .done d'' ∧ d'' ['y'] = some [199, 97] :=
  C84_ansi_back_partial (i := ['c']) (o := ['x']) (p := ['y']) (by decide +kernel) (by decide +kernel) rfl (by decide) (by decide) rfl rfl (by decide)

/-- The letter À (183) in code page 850. -/
example : 183 ∈ twice ∧ oem 183 = 192 := by decide

example : ∃ d' d'', run exWorld (fun _ => true) id .oemToAnsi "a x".toList (fun _ => some [183]) = .done d' ∧
    run exWorld (fun _ => true) id .ansiToOem "x y".toList d' = .done d'' ∧ d'' ['y'] ≠ some [183] :=
  C84_back_counterexample (i := ['a']) (o := ['x']) (p := ['y']) (by decide) (by decide +kernel) (by decide +kernel) rfl (by decide) (by decide) rfl rfl

/-- The letter ø (248) in Windows-1252. -/
example : ∃ junk d', run exWorld (fun _ => true) junk .ansiToOem "a x".toList (fun _ => some [248]) = .done d' ∧ d' ['x'] = some [7] :=
  C84_ansi_oem_undefined (i := ['a']) (b := 248) (by decide) 7 (by decide +kernel) rfl (by decide) rfl

example : (∀ k, k = .ansiToOem ∨ k = .oemToAnsi → ∃ d', run exWorld (fun _ => true) id k "a x".toList (fun _ => some [65, 10]) = .done d' ∧ d' ['x'] = some [65, 10]) ∧
    ∀ k, k = .ansiToUtf8 ∨ k = .oemToUtf8 → ∃ d', run exWorld (fun _ => true) id k "a x".toList (fun _ => some [65, 10]) = .done d' ∧
      d' ['x'] = some (utf8 65279 ++ [65, 10]) :=
  C84_ascii (i := ['a']) (by decide +kernel) rfl (by decide) rfl (by decide)

example : ∃ d' c', run exWorld (fun _ => true) id .ansiToUtf8 "a x".toList (fun _ => some [149]) = .done d' ∧ d' ['x'] = some (utf8 65279 ++ c') ∧
    ∀ t : List Nat, t.flatMap utf8 ≠ c' :=
  C84_bullet_counterexample (i := ['a']) (by decide +kernel) rfl (by decide) rfl

end Iode.FileCmd
