import Verif.Lemmas.Pack

/-!
# C16  Packed objects give back exactly the pieces put in

`W` is the size of a `long`: 4 or 8 bytes. The earlier contents of the shared buffer are arbitrary at each addition.
-/
namespace Iode
namespace Pack

/-- The bytes an element stands for. -/
def Elem.bytes : Elem → List Byte
  | .data bs => bs
  | .zeros n => List.replicate n 0

/-- Room of the elements, each with 1 to 4 bytes of padding so that the next one starts at a multiple of 4. -/
def room : List Elem → Nat
  | [] => 0
  | e :: es => (e.lg + (4 - e.lg % 4)) + room es

/-- Number of words before the data: two, and one per element rounded up to an even number. -/
def header (n : Nat) : Nat := 2 + 2 * ((n + 1) / 2)

theorem padded_eq (lg : Nat) : padded lg = lg + (4 - lg % 4) := by unfold padded; omega

theorem padded_gt (lg : Nat) : lg < padded lg := by unfold padded; omega

theorem room_append (xs ys : List Elem) : room (xs ++ ys) = room xs + room ys := by
  induction xs with
  | nil => simp [room]
  | cons e es ih => simp only [List.cons_append, room, ih]; omega

theorem room_take_succ {es : List Elem} {i : Nat} {e : Elem} (h : es[i]? = some e) :
    room (es.take (i + 1)) = room (es.take i) + padded e.lg := by
  rw [List.take_add_one, h, room_append]
  simp [room, padded_eq]

theorem room_take_le (es : List Elem) (i : Nat) : room (es.take i) ≤ room es := by
  have : room es = room (es.take i) + room (es.drop i) := by rw [← room_append, List.take_append_drop]
  omega

theorem copied_length (e : Elem) : e.copied.length ≤ padded e.lg := by
  cases e with
  | data bs => exact Nat.le_of_lt (padded_gt _)
  | zeros n =>
    simp only [Elem.copied, Elem.lg]
    split <;> simp

theorem bytes_getD (e : Elem) {j : Nat} (hj : j < e.lg) : j < e.copied.length ∧ e.copied.getD j 0 = e.bytes.getD j 0 := by
  cases e with
  | data bs => exact ⟨hj, rfl⟩
  | zeros n =>
    simp only [Elem.copied, Elem.lg, Elem.bytes] at *
    rw [if_neg (by omega)]
    have := padded_gt n
    constructor
    · rw [List.length_replicate]; omega
    · rw [List.getD_eq_getElem?_getD, List.getD_eq_getElem?_getD, List.getElem?_replicate, List.getElem?_replicate]
      repeat' split
      all_goals rfl

/-- The layout of a pack with the elements `es`. -/
structure Layout (W : Nat) (p : Pack) (es : List Elem) : Prop where
  size : p.size = W * header es.length + room es
  w0 : word W p 0 = W * header es.length + room es
  w1 : word W p 1 = es.length
  pos : ∀ i, i < es.length → word W p (i + 2) = W * header es.length + room (es.take i)
  data : ∀ i e, es[i]? = some e → ∀ j, j < e.lg →
    p.mem (W * header es.length + room (es.take i) + j) = e.bytes.getD j 0

theorem header_succ (n : Nat) : header (n + 1) = header n + (if n % 2 = 0 then 2 else 0) := by
  unfold header; split <;> omega

theorem header_zero : header 0 = 2 := rfl
theorem header_one : header 1 = 4 := rfl

theorem header_gt (n : Nat) : n + 2 ≤ header n := by unfold header; omega

variable {W : Nat}

theorem word_realloc {p : Pack} {n k : Nat} (h : W * k + W ≤ p.size) : word W (realloc p n) k = word W p k := by
  apply rd_congr
  intro x h1 h2
  simp only [realloc]
  rw [if_pos (by omega)]

theorem mul_word_le {k c : Nat} (h : k < c) : W * k + W ≤ W * c := by
  rw [← Nat.mul_succ]; exact Nat.mul_le_mul_left W h

set_option maxHeartbeats 1000000 in
/-- One addition. -/
theorem Layout.add (hW : 0 < W) (buf : Nat → Byte) {p : Pack} {es : List Elem} (h : Layout W p es) (e : Elem)
    (hb : W * header (es.length + 1) + room es + padded e.lg < 256 ^ W) :
    ∃ q, Pack.add W buf p e = .ok q ∧ Layout W q (es ++ [e]) := by
  obtain ⟨hsize, hw0, hw1, hpos, hdata⟩ := h
  have hgt := header_gt es.length
  have hgt1 := header_gt (es.length + 1)
  have hnp : (if word W p 1 % 2 = 0 then 2 * W else 0) = W * header (es.length + 1) - W * header es.length := by
    rw [hw1, header_succ, Nat.mul_add]
    split <;> omega
  have hmono : W * header es.length ≤ W * header (es.length + 1) := by
    rw [header_succ, Nat.mul_add]; omega
  have hlg := padded_gt e.lg
  unfold Pack.add
  simp only [hnp]
  generalize hnpv : W * header (es.length + 1) - W * header es.length = np at *
  -- the block after realloc
  have hsz1 : (realloc p (word W p 0 + padded e.lg + np)).size = W * header (es.length + 1) + room es + padded e.lg := by
    show word W p 0 + padded e.lg + np = _
    rw [hw0]; omega
  have hwk : ∀ k, k < header es.length → word W (realloc p (word W p 0 + padded e.lg + np)) k = word W p k := by
    intro k hk
    apply word_realloc
    have := mul_word_le (W := W) hk
    omega
  have hmem1 : ∀ x, x < p.size → (realloc p (word W p 0 + padded e.lg + np)).mem x = p.mem x := by
    intro x hx; simp only [realloc]; rw [if_pos hx]
  generalize realloc p (word W p 0 + padded e.lg + np) = p1 at *
  have hw1' : word W p1 1 = es.length := by rw [hwk 1 (by omega), hw1]
  have hw0' : word W p1 0 = W * header es.length + room es := by rw [hwk 0 (by omega), hw0]
  rw [hw1']
  cases es with
  | nil =>
    simp only [List.length_nil, if_true]
    simp only [List.length_nil, header_zero, room, Nat.add_zero, Nat.zero_add, header_one] at *
    have hnp2 : np = 2 * W := by omega
    subst hnp2
    unfold addFirst
    obtain ⟨q1, a1, a2, a3, a4, a5⟩ := setWord_ok (W := W) (p := p1) (k := 0) (word W p1 0 + padded e.lg + 2 * W) (by omega)
    obtain ⟨q2, b1, b2, b3, b4, b5⟩ := setWord_ok (W := W) (p := q1) (k := 1) 1 (by omega)
    obtain ⟨q3, c1, c2, c3, c4, c5⟩ := setWord_ok (W := W) (p := q2) (k := 2) (2 * W + 2 * W) (by omega)
    have hcl := copied_length e
    have hw2 : word W q3 2 = W * 4 := by rw [c3 (by omega)]; omega
    obtain ⟨q4, d1, d2, d3, d4⟩ := put_ok (W := W) (p := q3) (a := word W q3 2) e.copied (by omega)
    simp only [a1, Res.bind_ok, b1, c1, d1]
    refine ⟨q4, rfl, ?_⟩
    have one256 : 1 < 256 ^ W := by omega
    have hw0q : word W q4 0 = W * 4 + padded e.lg := by
      rw [d3 0 (by omega), c4 0 (by omega), b4 0 (by omega), a3 (by omega), hw0']; omega
    refine ⟨?_, ?_, ?_, ?_, ?_⟩
    · simp only [List.nil_append, List.length_singleton, header_one, room, ← padded_eq]; omega
    · simp only [List.nil_append, List.length_singleton, header_one, room, ← padded_eq]; omega
    · simp only [List.nil_append, List.length_singleton]
      rw [d3 1 (by omega), c4 1 (by omega), b3 one256]
    · intro i hi
      simp only [List.nil_append, List.length_singleton] at hi
      have : i = 0 := by omega
      subst this
      simp only [List.nil_append, List.length_singleton, header_one, List.take_zero, room, Nat.zero_add, Nat.add_zero]
      rw [d3 2 (by omega)]; exact hw2
    · intro i e' he' j hj
      simp only [List.nil_append] at he'
      have hi : i = 0 := by
        have := (List.getElem?_eq_some_iff.1 he').1
        simp at this; exact this
      subst hi
      simp only [List.getElem?_cons_zero, Option.some.injEq] at he'
      subst he'
      obtain ⟨g1, g2⟩ := bytes_getD e hj
      simp only [List.nil_append, List.length_singleton, header_one, List.take_zero, room, Nat.add_zero]
      rw [d4 _ (by omega) (by omega), ← g2]
      congr 1; omega
  | cons e0 es0 =>
    rw [if_neg (by simp)]
    generalize hes : e0 :: es0 = es at *
    have hne : 0 < es.length := by rw [← hes]; simp
    have hw2' : word W p1 2 = W * header es.length := by
      rw [hwk 2 (by omega), hpos 0 hne]; simp [room]
    unfold addNext
    have hdif : word W p1 0 - word W p1 2 = room es := by omega
    simp only [hdif]
    rw [if_neg (by omega)]
    have hcl := copied_length e
    generalize hdat : buffer buf (bytes p1.mem (word W p1 2) (room es)) e.copied (room es + padded e.lg) = dat
    have hdatlen : dat.length = room es + padded e.lg := by rw [← hdat]; simp [buffer]
    have hdatget : ∀ j, j < room es + padded e.lg → dat.getD j 0 =
        if j < room es then p1.mem (word W p1 2 + j)
        else if j < room es + e.copied.length then e.copied.getD (j - room es) 0 else buf j := by
      intro j hj
      rw [List.getD_eq_getElem?_getD, ← hdat]
      simp only [buffer, bytes, List.length_map, List.length_range, List.getElem?_map, List.getElem?_range hj,
        Option.map_some, Option.getD_some]
      split
      · rename_i hjr
        rw [List.getD_eq_getElem?_getD, List.getElem?_map, List.getElem?_range hjr]; rfl
      · rfl
    have hbase : W * (es.length + 2) ≤ W * header es.length := Nat.mul_le_mul_left W hgt
    have hbase1 : W * (es.length + 1 + 2) ≤ W * header (es.length + 1) := Nat.mul_le_mul_left W hgt1
    have hposk : ∀ k, k < es.length → word W p1 (k + 2) = W * header es.length + room (es.take k) := by
      intro k hk; rw [hwk (k + 2) (by omega)]; exact hpos k hk
    obtain ⟨q1, a1, a2, a3, a4, a5⟩ := shift_ok (W := W) np es.length 0 p1 (by simp only [Nat.zero_add]; omega) (by
      intro k _ hk
      rw [hposk k (by omega)]
      have := room_take_le es k
      omega)
    simp only [Nat.zero_add] at a3 a4 a5
    have hq10 : word W q1 0 = W * header es.length + room es := by rw [a4 0 (by omega), hw0']
    have hw3 : W * (es.length + 2) + W ≤ q1.size := by
      have : W * (es.length + 2) + W = W * (es.length + 1 + 2) := by rw [← Nat.mul_succ]
      omega
    obtain ⟨q2, b1, b2, b3, b4, b5⟩ := setWord_ok (W := W) (p := q1) (k := es.length + 2) (word W q1 0 + np) hw3
    have hq20 : word W q2 0 = W * header es.length + room es := by rw [b4 0 (by omega), hq10]
    have hW1 : W * (es.length + 1 + 2) = W * es.length + W + W + W := by
      rw [show es.length + 1 + 2 = es.length + 3 by omega, Nat.mul_add]; omega
    obtain ⟨q3, c1, c2, c3, c4, c5⟩ := setWord_ok (W := W) (p := q2) (k := 0) (word W q2 0 + padded e.lg + np) (by omega)
    obtain ⟨q4, d1, d2, d3, d4, d5⟩ := setWord_ok (W := W) (p := q3) (k := 1) (es.length + 1) (by omega)
    have hlt1 : es.length + 1 < 256 ^ W := by
      have : es.length + 1 + 2 ≤ W * (es.length + 1 + 2) := Nat.le_mul_of_pos_left _ hW
      omega
    have hq42 : ∀ k, k < es.length → word W q4 (k + 2) = W * header (es.length + 1) + room (es.take k) := by
      intro k hk
      rw [d4 (k + 2) (by omega), c4 (k + 2) (by omega), b4 (k + 2) (by omega), a3 k (by omega) hk, hposk k hk]; omega
    have hq40 : word W q4 0 = W * header (es.length + 1) + room es + padded e.lg := by
      rw [d4 0 (by omega), c3 (by omega), hq20]; omega
    have hw24 : word W q4 2 = W * header (es.length + 1) := by
      rw [hq42 0 hne]; simp [room]
    have hall : dat.take (word W q4 0 - word W q4 2) = dat := by
      apply List.take_of_length_le; omega
    obtain ⟨q5, f1, f2, f3, f4⟩ := put_ok (W := W) (p := q4) (a := word W q4 2)
      (dat.take (word W q4 0 - word W q4 2)) (by rw [hall]; omega)
    simp only [hw1', a1, Res.bind_ok, b1, c1, d1]
    refine ⟨q5, f1, ?_⟩
    rw [hall] at f4
    have hlen : (es ++ [e]).length = es.length + 1 := by simp
    have hroom : room (es ++ [e]) = room es + padded e.lg := by rw [room_append]; simp [room, padded_eq]
    have hwq5 : ∀ k, k < es.length + 3 → word W q5 k = word W q4 k := by
      intro k hk
      apply f3
      rw [hw24]
      have := mul_word_le (W := W) (k := k) (c := header (es.length + 1)) (by omega)
      exact this
    refine ⟨?_, ?_, ?_, ?_, ?_⟩
    · rw [hlen, hroom]; omega
    · rw [hlen, hroom, hwq5 0 (by omega), hq40]; omega
    · rw [hlen, hwq5 1 (by omega), d3 hlt1]
    · intro i hi
      rw [hlen] at hi ⊢
      rw [hwq5 (i + 2) (by omega)]
      by_cases hil : i < es.length
      · rw [hq42 i hil, List.take_append_of_le_length (by omega)]
      · have : i = es.length := by omega
        subst this
        rw [d4 _ (by omega), c4 _ (by omega), b3 (by omega), hq10, List.take_append_of_le_length (by omega), List.take_length]
        omega
    · intro i e' he' j hj
      rw [hlen]
      by_cases hil : i < es.length
      · rw [List.getElem?_append_left hil] at he'
        rw [List.take_append_of_le_length (by omega)]
        have hr : room (es.take i) + j < room es := by
          have h1 := room_take_le es (i + 1)
          rw [room_take_succ he'] at h1
          have := padded_gt e'.lg
          omega
        rw [f4 _ (by omega) (by omega), hdatget _ (by omega), if_pos (by omega), hw2', hw24]
        have e1 : W * header es.length + (W * header (es.length + 1) + room (es.take i) + j - W * header (es.length + 1)) =
            W * header es.length + room (es.take i) + j := by omega
        rw [e1, hmem1 _ (by omega)]
        exact hdata i e' he' j hj
      · have hi : i = es.length := by
          have := (List.getElem?_eq_some_iff.1 he').1
          simp at this; omega
        subst hi
        rw [List.getElem?_append_right (by omega)] at he'
        simp only [Nat.sub_self, List.getElem?_cons_zero, Option.some.injEq] at he'
        subst he'
        obtain ⟨g1, g2⟩ := bytes_getD e hj
        rw [List.take_append_of_le_length (by omega), List.take_length]
        rw [f4 _ (by omega) (by omega), hdatget _ (by omega), if_neg (by omega), if_pos (by omega), ← g2]
        congr 1; omega

theorem Layout.build (hW : 0 < W) (bs : List ((Nat → Byte) × Elem)) : ∀ {p : Pack} {es : List Elem}, Layout W p es →
    W * header (es.length + bs.length) + room es + room (bs.map (·.2)) < 256 ^ W →
    ∃ q, Pack.build W p bs = .ok q ∧ Layout W q (es ++ bs.map (·.2)) := by
  induction bs with
  | nil => intro p es h _; exact ⟨p, rfl, by simpa using h⟩
  | cons b bs ih =>
    intro p es h hb
    obtain ⟨buf, e⟩ := b
    simp only [List.map_cons, room, List.length_cons, ← padded_eq] at hb
    have hm : W * header (es.length + 1) ≤ W * header (es.length + (bs.length + 1)) := by
      apply Nat.mul_le_mul_left; unfold header; omega
    obtain ⟨q1, h1, h2⟩ := h.add hW buf e (by omega)
    have hr : room (es ++ [e]) = room es + padded e.lg := by rw [room_append]; simp [room, padded_eq]
    obtain ⟨q2, r1, r2⟩ := ih h2 (by
      rw [hr]
      simp only [List.length_append, List.length_singleton]
      have : es.length + 1 + bs.length = es.length + (bs.length + 1) := by omega
      rw [this]; omega)
    refine ⟨q2, ?_, ?_⟩
    · simp only [Pack.build, h1]; exact r1
    · simpa using r2

theorem Layout.create (hW : W = 4 ∨ W = 8) : Layout W (create W) [] := by
  rcases hW with h | h <;> subst h <;>
    refine ⟨rfl, by decide, by decide, fun i hi => by simp at hi, fun i e he => by simp at he⟩

end Pack
open Pack

/-- C16. Adding any sequence of elements to a new pack never leaves the block, as long as the total size stays below
    2^31 (the code casts it to `int`); afterwards the pack reports the number of elements, and element `i` starts at a
    position from which its bytes can be read, followed by 1 to 4 bytes of padding up to its reported length. -/
theorem C16_pack (W : Nat) (hW : W = 4 ∨ W = 8) (bs : List ((Nat → Byte) × Elem))
    (hsize : W * header bs.length + room (bs.map (·.2)) < 2 ^ 31) :
    ∃ q, Pack.build W (create W) bs = .ok q ∧ nb W q = bs.length ∧
      (∀ i : Nat, ∀ e, (bs.map (·.2))[i]? = some e →
        ∃ a, getPtr W q i = some a ∧ a % 4 = 0 ∧ bytes q.mem a e.lg = e.bytes ∧
          getLen W q i = (e.lg + (4 - e.lg % 4) : Nat) ∧ a + (e.lg + (4 - e.lg % 4)) ≤ q.size) ∧
      (∀ i : Int, i < 0 ∨ bs.length ≤ i → getPtr W q i = none) ∧
      (∀ i : Int, bs.length ≤ i → getLen W q i = -1) ∧ (∀ i : Int, i < 0 → getLen W q i = q.size) := by
  have hW0 : 0 < W := by omega
  have hpow : 2 ^ 31 < 256 ^ W := by rcases hW with h | h <;> subst h <;> decide
  obtain ⟨q, hq, hL⟩ := Layout.build hW0 bs (Layout.create hW) (by simp only [List.length_nil, Nat.zero_add, room]; omega)
  simp only [List.nil_append] at hL
  have hlen : (bs.map (·.2)).length = bs.length := by simp
  generalize hes : bs.map (·.2) = es at *
  obtain ⟨l1, l2, l3, l4, l5⟩ := hL
  rw [hlen] at l1 l2 l3 l4 l5
  have hhead : 2 ≤ header bs.length := by have := header_gt bs.length; omega
  have hpos0 : 0 < word W q 0 := by
    rw [l2]
    have : W * 2 ≤ W * header bs.length := Nat.mul_le_mul_left W hhead
    omega
  have hroom4 : ∀ xs : List Elem, room xs % 4 = 0 := by
    intro xs
    induction xs with
    | nil => rfl
    | cons e xs ih => simp only [room]; omega
  refine ⟨q, hq, l3, ?_, ?_, ?_, ?_⟩
  · intro i e he
    have hi : i < bs.length := by rw [← hlen]; exact (List.getElem?_eq_some_iff.1 he).1
    have hsucc := room_take_succ he
    have hle := room_take_le es (i + 1)
    refine ⟨W * header bs.length + room (es.take i), ?_, ?_, ?_, ?_, ?_⟩
    · unfold getPtr
      rw [l3, if_neg (by omega)]
      simp only [Int.toNat_natCast]
      rw [l4 i hi]
    · have h1 := hroom4 (es.take i)
      have h2 : W % 4 = 0 := by rcases hW with h | h <;> subst h <;> rfl
      rw [Nat.add_mod, Nat.mul_mod, h2, h1]; simp
    · have hbl : e.bytes.length = e.lg := by cases e <;> simp [Elem.bytes, Elem.lg]
      apply List.ext_getElem?
      intro j
      by_cases hj : j < e.lg
      · simp only [bytes, List.getElem?_map, List.getElem?_range hj, Option.map_some]
        rw [l5 i e he j hj, List.getD_eq_getElem?_getD, List.getElem?_eq_getElem (by omega)]; rfl
      · have hbl2 : (bytes q.mem (W * header bs.length + room (es.take i)) e.lg).length = e.lg := by
          simp [Pack.bytes]
        rw [List.getElem?_eq_none (by omega), List.getElem?_eq_none (by omega)]
    · unfold getLen
      rw [if_neg (by omega), if_neg (by omega), l3, if_neg (by omega)]
      simp only [Int.toNat_natCast]
      rw [← padded_eq, l4 i hi]
      by_cases hl : i + 1 = bs.length
      · rw [if_pos (by omega), l2]
        have : es.take (i + 1) = es := List.take_of_length_le (by omega)
        rw [this] at hsucc
        omega
      · rw [if_neg (by omega), show i + 3 = (i + 1) + 2 by omega, l4 (i + 1) (by omega)]
        omega
    · rw [← padded_eq, l1]; omega
  · intro i hi
    unfold getPtr
    rw [l3, if_pos (by omega)]
  · intro i hi
    unfold getLen
    rw [if_neg (by omega), if_neg (by omega), l3, if_pos (by omega)]
  · intro i hi
    unfold getLen
    rw [if_neg (by omega), if_pos hi, l2, l1]

/-! ### Example: three elements, the second of zeros, the third empty -/

example :
    let junk : Nat → Byte := fun _ => 7
    (match Pack.build 8 (create 8) [(junk, .data [1, 2, 3, 4, 5]), (junk, .zeros 2), (junk, .data [])] with
    | .ok q => decide (nb 8 q = 3 ∧ getPtr 8 q 0 = some 48 ∧ getPtr 8 q 1 = some 56 ∧ getPtr 8 q 2 = some 60 ∧
        bytes q.mem 48 8 = [1, 2, 3, 4, 5, 0, 0, 0] ∧ getLen 8 q 1 = 4 ∧ getLen 8 q 2 = 4 ∧ q.size = 64)
    | _ => false) = true := by
  decide +kernel

end Iode
