import Verif.Model.Res

/-!
# What is said about paths, files and character sets (C83, C84)
-/
namespace Iode.FileCmd.Written

/-- The name behind the last `/` of a path has a point behind its first character, and is not `..`. -/
def HasExt (p : List Char) : Prop :=
  ∃ dir n e, p = dir ++ n ++ '.' :: e ∧ n ≠ [] ∧ '/' ∉ n ∧ '/' ∉ e ∧ (dir = [] ∨ dir.getLast? = some '/') ∧ ¬ (n = ['.'] ∧ e = [])

/-- The file a name stands for when files usually have this extension. -/
inductive Path (ext : List Char) : List Char → List Char → Prop
  | given {p} : p ≠ [] → p.length ≤ 511 → HasExt p → Path ext p p
  | usual {p} : p ≠ [] → p.length ≤ 511 → ¬ HasExt p → Path ext p (p ++ '.' :: ext)

/-- A file begins like a database of objects and has something behind that. -/
def Database (c : List Nat) : Prop :=
  ∃ v r, r ≠ [] ∧ c = "KOBJS ".toList.map Char.toNat ++ v ++ 26 :: r ∧
    (v = "564A".toList.map Char.toNat ∨ v = "4.02".toList.map Char.toNat ∨ v = "504d".toList.map Char.toNat)

/-- The bytes of a code point below 65536 in UTF-8. -/
def utf8 (c : Nat) : List Nat :=
  if c < 128 then [c]
  else if c < 2048 then [192 + c / 64, 128 + c % 64]
  else [224 + c / 4096, 128 + c / 64 % 64, 128 + c % 64]

/-- The code points of the bytes from 128 on in code page 850 (OEM). -/
def cp850 : List Nat :=
  [199, 252, 233, 226, 228, 224, 229, 231, 234, 235, 232, 239, 238, 236, 196, 197, 201, 230, 198, 244, 246, 242, 251, 249, 255, 214, 220, 248,
   163, 216, 215, 402, 225, 237, 243, 250, 241, 209, 170, 186, 191, 174, 172, 189, 188, 161, 171, 187, 9617, 9618, 9619, 9474, 9508, 193, 194, 192,
   169, 9571, 9553, 9559, 9565, 162, 165, 9488, 9492, 9524, 9516, 9500, 9472, 9532, 227, 195, 9562, 9556, 9577, 9574, 9568, 9552, 9580, 164,
   240, 208, 202, 203, 200, 305, 205, 206, 207, 9496, 9484, 9608, 9604, 166, 204, 9600, 211, 223, 212, 210, 245, 213, 181, 254, 222, 218, 219, 217,
   253, 221, 175, 180, 173, 177, 8215, 190, 182, 167, 247, 184, 176, 168, 183, 185, 179, 178, 9632, 160]

/-- The code point of a byte in code page 850. -/
def oem (c : Nat) : Nat := if c < 128 then c else cp850.getD (c - 128) 0

/-- The code points of the bytes from 128 to 159 in Windows-1252 (ANSI); 0 for the five bytes it does not use. -/
def cp1252 : List Nat :=
  [8364, 0, 8218, 402, 8222, 8230, 8224, 8225, 710, 8240, 352, 8249, 338, 0, 381, 0, 0, 8216, 8217, 8220, 8221, 8226, 8211, 8212, 732, 8482, 353,
   8250, 339, 0, 382, 376]

/-- The code point of a byte in Windows-1252. -/
def ansi (c : Nat) : Nat := if c < 128 ∨ 160 ≤ c then c else cp1252.getD (c - 128) 0

/-- The letters of French, Dutch, German, Italian and Spanish that are not ASCII, as code points: À Á Â Ä Å Æ Ç È É Ê Ë Ì Í Î Ï Ñ Ò Ó Ô Ö Ù Ú Û Ü
and the small ones with ÿ. -/
def letters : List Nat :=
  [192, 193, 194, 196, 197, 198, 199, 200, 201, 202, 203, 204, 205, 206, 207, 209, 210, 211, 212, 214, 217, 218, 219, 220,
   224, 225, 226, 228, 229, 230, 231, 232, 233, 234, 235, 236, 237, 238, 239, 241, 242, 243, 244, 246, 249, 250, 251, 252, 255]

/-- A text in ASCII and these letters, as code points. -/
def Plain (t : List Nat) : Prop := ∀ c ∈ t, (0 < c ∧ c < 128) ∨ c ∈ letters

end Iode.FileCmd.Written
