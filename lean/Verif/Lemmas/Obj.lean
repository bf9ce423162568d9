import Verif.Model.Obj
import Verif.Props.C19

/-! # Reading the elements of a pack -/
namespace Iode
namespace Obj
open Pack BinFile

/-- The block `q` begins with a pack of these elements. -/
structure Holds (W : Nat) (q : Pack) (es : List Elem) : Prop where
  nb : word W q 1 = es.length
  elem : ∀ (i : Nat) e, es[i]? = some e → ∃ r, piece W q i = some (e.bytes ++ r) ∧ 1 ≤ r.length ∧
    getLen W q i = (padded e.lg : Nat)
  size : W * header es.length + room es ≤ q.size

theorem rd_same {p q : Pack} (hsz : p.size ≤ q.size) (hm : ∀ x, x < p.size → q.mem x = p.mem x) {W k : Nat}
    (hk : W * k + W ≤ p.size) : word W q k = word W p k := by
  unfold word
  exact rd_congr W (fun x _ h2 => hm x (by omega))

theorem room_split {es : List Elem} {i : Nat} {e : Elem} (h : es[i]? = some e) :
    room (es.take i) + padded e.lg ≤ room es := by
  have := room_take_succ h
  have := room_take_le es (i + 1)
  omega

theorem elem_bytes_length (e : Elem) : e.bytes.length = e.lg := by cases e <;> simp [Elem.bytes, Elem.lg]

theorem holds_of_layout {W : Nat} (hW : 0 < W) {p q : Pack} {es : List Elem} (h : Pack.Layout W p es)
    (hsz : p.size ≤ q.size) (hm : ∀ x, x < p.size → q.mem x = p.mem x) : Holds W q es := by
  have hs := h.size
  have hword : ∀ k, k < header es.length → word W q k = word W p k := by
    intro k hk
    apply rd_same hsz hm
    have := mul_word_le (W := W) hk
    omega
  have hg := header_gt es.length
  have w1 : word W q 1 = es.length := by rw [hword 1 (by omega), h.w1]
  have w0 : word W q 0 = W * header es.length + room es := by rw [hword 0 (by omega), h.w0]
  have wp : ∀ i, i < es.length → word W q (i + 2) = W * header es.length + room (es.take i) := by
    intro i hi
    rw [hword (i + 2) (by omega), h.pos i hi]
  have hpos0 : 0 < word W q 0 := by
    rw [w0]
    have : W * 2 ≤ W * header es.length := Nat.mul_le_mul_left W (by omega)
    omega
  refine ⟨w1, ?_, by omega⟩
  intro i e he
  have hi : i < es.length := (List.getElem?_eq_some_iff.1 he).1
  have hr := room_split he
  have hsucc := room_take_succ he
  have hlt := padded_gt e.lg
  generalize ha : W * header es.length + room (es.take i) = a at *
  refine ⟨bytes q.mem (a + e.lg) (q.size - (a + e.lg)), ?_, ?_, ?_⟩
  · unfold piece getPtr
    rw [w1, if_neg (by omega)]
    simp only [Int.toNat_natCast, Option.map_some, wp i hi, ha]
    congr 1
    apply List.ext_getElem?
    intro j
    have hbl := elem_bytes_length e
    by_cases hj : j < e.lg
    · rw [List.getElem?_append_left (by omega)]
      have hd := h.data i e he j hj
      rw [ha] at hd
      have hj2 : j < q.size - a := by omega
      simp only [bytes, List.getElem?_map, List.getElem?_range hj2, Option.map_some]
      rw [hm (a + j) (by omega), hd, List.getD_eq_getElem?_getD, List.getElem?_eq_getElem (by omega)]
      rfl
    · rw [List.getElem?_append_right (by omega), hbl]
      by_cases hj2 : j < q.size - a
      · have hj3 : j - e.lg < q.size - (a + e.lg) := by omega
        simp only [bytes, List.getElem?_map, List.getElem?_range hj2, List.getElem?_range hj3, Option.map_some]
        congr 2
        omega
      · simp only [bytes]
        rw [List.getElem?_eq_none (by simp; omega), List.getElem?_eq_none (by simp; omega)]
  · simp only [bytes, List.length_map, List.length_range]
    omega
  · unfold getLen
    rw [if_neg (by omega), if_neg (by omega), w1, if_neg (by omega)]
    simp only [Int.toNat_natCast]
    rw [wp i hi, ha]
    by_cases hl : i + 1 = es.length
    · rw [if_pos (by omega), w0]
      have : es.take (i + 1) = es := List.take_of_length_le (by omega)
      rw [this] at hsucc
      omega
    · rw [if_neg (by omega), show i + 3 = (i + 1) + 2 by omega, wp (i + 1) (by omega)]
      omega

theorem withBufs_map (bufs : Nat → Nat → Byte) (es : List Elem) : ∀ i, (withBufs bufs i es).map (·.2) = es := by
  induction es with
  | nil => intro i; rfl
  | cons e es ih => intro i; simp [withBufs, ih]

theorem withBufs_length (bufs : Nat → Nat → Byte) (es : List Elem) (i : Nat) : (withBufs bufs i es).length = es.length := by
  have := congrArg List.length (withBufs_map bufs es i)
  simpa using this

/-- Total size of a pack of these elements. -/
def packSize (W : Nat) (es : List Elem) : Nat := W * header es.length + room es

theorem toPack_layout {W : Nat} (hW : W = 4 ∨ W = 8) (bufs : Nat → Nat → Byte) (es : List Elem)
    (hs : packSize W es < 2 ^ 31) : ∃ p, toPack W bufs es = .ok p ∧ Pack.Layout W p es := by
  have hpow : 2 ^ 31 < 256 ^ W := by rcases hW with h | h <;> subst h <;> decide
  unfold packSize at hs
  obtain ⟨q, hq, hL⟩ := Layout.build (by omega) (withBufs bufs 0 es) (Layout.create hW)
    (by rw [withBufs_length, withBufs_map]; simp only [List.length_nil, Nat.zero_add, room]; omega)
  rw [withBufs_map] at hL
  exact ⟨q, hq, by simpa using hL⟩

theorem mem_packList (p : Pack) {x : Nat} (h : x < p.size) : mem (packList p) x = p.mem x := by
  simp [BinFile.mem, packList, bytes, List.getD_eq_getElem?_getD, h]

theorem packList_length (p : Pack) : (packList p).length = p.size := by simp [packList, bytes]

theorem room_le (es : List Elem) : room es ≤ (es.map Elem.lg).sum + 4 * es.length := by
  induction es with
  | nil => simp [room]
  | cons e es ih => simp only [room, List.map_cons, List.sum_cons, List.length_cons]; omega

theorem bind_inv {A B : Type} {x : Res A} {f : A → Res B} {y : B} (h : x.bind f = .ok y) : ∃ a, x = .ok a ∧ f a = .ok y := by
  cases x with
  | ok a => exact ⟨a, rfl, h⟩
  | err => cases h
  | ub => cases h

/-! ### Pieces -/

theorem cstr_append {o r : List Byte} (h : (0 : Byte) ∉ o) : cstr (o ++ 0 :: r) = o := by
  unfold cstr
  rw [List.takeWhile_append_of_pos (by intro b hb; simp only [decide_eq_true_eq]; intro e; exact h (e ▸ hb))]
  simp

theorem cstr_id {o : List Byte} (h : (0 : Byte) ∉ o) : cstr o = o := by
  unfold cstr
  have := List.takeWhile_append_of_pos (p := fun b : Byte => decide (b ≠ 0)) (l₁ := o) (l₂ := [])
    (by intro b hb; simp only [decide_eq_true_eq]; intro e; exact h (e ▸ hb))
  simpa using this

theorem upTo_append {o r : List Byte} (h : (0 : Byte) ∉ o) : upTo (o ++ 0 :: r) = .ok o := by
  unfold upTo
  rw [if_pos (by simp), cstr_append h]

variable {W : Nat} {q : Pack} {es : List Elem}

/-- Reading a text: any element that begins with the text and a null byte. -/
theorem strn_holds (hq : Holds W q es) {i : Nat} {e : Elem} (he : es[i]? = some e) {o r : List Byte}
    (hb : e.bytes = o ++ 0 :: r) (h0 : (0 : Byte) ∉ o) : strn W q i = .ok o := by
  obtain ⟨r', hp, _, hl⟩ := hq.elem i e he
  unfold strn
  rw [hl, hp, if_neg (by omega)]
  simp only [Int.toNat_natCast]
  have hlen : (o ++ 0 :: r).length = e.lg := by rw [← hb]; exact elem_bytes_length e
  have hlt := padded_gt e.lg
  rw [hb]
  have : (o ++ 0 :: r ++ r').take (padded e.lg) = o ++ 0 :: (r ++ r').take (padded e.lg - (o.length + 1)) := by
    rw [List.append_assoc, List.take_append]
    simp only [List.length_append, List.length_cons] at hlen
    rw [List.take_of_length_le (by omega), List.cons_append, show padded e.lg - o.length = (padded e.lg - (o.length + 1)) + 1 by omega,
      List.take_succ_cons]
  rw [this, upTo_append h0]

theorem field_holds (hq : Holds W q es) {i : Nat} {e : Elem} (he : es[i]? = some e) :
    field e.lg (piece W q i) = .ok e.bytes := by
  obtain ⟨r, hp, _, _⟩ := hq.elem i e he
  rw [hp]
  unfold field
  have hl := elem_bytes_length e
  simp only
  rw [if_neg (by simp [hl]), ← hl, List.take_left]

/-! ### Arrays -/

/-- A number that fits in `w` bytes. -/
def Fits (w : Nat) (v : Int) : Prop := -(256 ^ w : Int) ≤ 2 * v ∧ 2 * v < 256 ^ w

theorem putWords_length (w : Nat) (vs : List Int) : (putWords w vs).length = w * vs.length := by
  induction vs with
  | nil => rfl
  | cons v vs ih =>
    have : putWords w (v :: vs) = putWord w v ++ putWords w vs := rfl
    rw [this, List.length_append, ih, putWord_length, List.length_cons, Nat.mul_succ]
    omega

theorem getWords_putWords (w : Nat) (vs : List Int) : (∀ v ∈ vs, Fits w v) → ∀ r,
    getWords w vs.length (putWords w vs ++ r) = vs := by
  induction vs with
  | nil => intro _ r; rfl
  | cons v vs ih =>
    intro h r
    have e : putWords w (v :: vs) = putWord w v ++ putWords w vs := rfl
    rw [e, List.append_assoc]
    simp only [List.length_cons, getWords]
    have hv := h v (by simp)
    rw [getWord_putWord w v hv.1 hv.2, drop_length_append (putWord_length w v).symm, ih (fun x hx => h x (by simp [hx]))]

theorem getWord_putWord' {w : Nat} {v : Int} (h : Fits w v) : getWord w (putWord w v) = v := by
  have := getWord_putWord w v h.1 h.2 []
  simpa using this

/-! ### Conversions -/

/-- A text that survives the conversion to the OEM code page and back, `o` once converted. -/
structure Clean (cp : CodePage) (t o : Text) : Prop where
  enc : utf8ToOem cp t = .ok o
  dec : oemToUtf8 cp o = .ok t
  noNul : (0 : Byte) ∉ o

theorem strElem_bytes (t : Text) : (strElem t).bytes = t ++ [0] := by
  unfold strElem
  cases t <;> rfl

theorem lecElem_bytes (slack : Nat → Byte) {n : Nat} {o : Text} (h : o.length ≤ n) :
    ∃ r, (lecElem slack n o).bytes = o ++ 0 :: r := by
  refine ⟨(List.range (n - o.length)).map (fun j => slack (o.length + 1 + j)), ?_⟩
  simp only [lecElem, Elem.bytes]
  apply List.ext_getElem?
  intro j
  by_cases hj : j < n + 1
  · simp only [List.getElem?_map, List.getElem?_range hj, Option.map_some]
    by_cases h1 : j < o.length
    · rw [List.getElem?_append_left h1, List.getD_eq_getElem?_getD, List.getElem?_append_left h1,
        List.getElem?_eq_getElem h1]
      rfl
    · rw [List.getElem?_append_right (by omega), List.getD_eq_getElem?_getD, List.getElem?_append_right (by omega)]
      by_cases h2 : j = o.length
      · subst h2; simp
      · obtain ⟨k, hk⟩ : ∃ k, j - o.length = k + 1 := ⟨j - o.length - 1, by omega⟩
        rw [hk]
        have hk2 : k < n - o.length := by omega
        simp only [List.getElem?_cons_succ, List.getElem?_map, List.getElem?_range hk2, Option.map_some, List.getElem?_nil,
          Option.getD_none]
        congr 2
        omega
  · rw [List.getElem?_eq_none (by simp; omega), List.getElem?_eq_none (by simp; omega)]

end Obj
end Iode
