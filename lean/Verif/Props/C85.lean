import Verif.Model.ObjVers
import Verif.Lemmas.Obj
import Mathlib.Data.List.Forall2

/-!
# C85: objects of older files are loaded with their values

`Old p` says that a block is a pack with words of 2 bytes: its first word is its size and its elements lie behind the words. What is read from the
pack made of it is what the words of 2 bytes give.
-/

namespace Iode.ObjVers

open Pack BinFile Obj

/-- A pack with words of 2 bytes. -/
structure Old (p : Pack) : Prop where
  size : word 2 p 0 = p.size
  room : 2 * (word 2 p 1 + 2 + word 2 p 1 % 2) ≤ p.size
  pos : ∀ i, i < word 2 p 1 → 2 * (word 2 p 1 + 2 + word 2 p 1 % 2) ≤ word 2 p (i + 2) ∧ word 2 p (i + 2) ≤ p.size

/-! ## The pack made -/

theorem rd_lt (m : Nat → Byte) : ∀ (w a : Nat), rd m a w < 256 ^ w
  | 0, _ => by simp [rd]
  | w + 1, a => by
    have := rd_lt m w (a + 1)
    have h := (m a).isLt
    rw [rd, Nat.pow_succ]
    omega

theorem rd_add (m : Nat → Byte) : ∀ (u a v : Nat), rd m a (u + v) = rd m a u + 256 ^ u * rd m (a + u) v
  | 0, a, v => by simp [rd]
  | u + 1, a, v => by
    rw [show u + 1 + v = u + v + 1 by omega, rd, rd_add m u (a + 1) v, rd, show a + 1 + u = a + (u + 1) by omega, Nat.pow_succ,
      Nat.mul_add, ← Nat.mul_assoc, Nat.mul_comm 256 (256 ^ u)]
    omega

theorem fill_ok {W : Nat} {p : Pack} (add : Nat) (n : Nat) : ∀ (i : Nat) (q : Pack), W * (i + n + 2) ≤ q.size → 2 * (i + n + 2) ≤ p.size →
    (∀ k, i ≤ k → k < i + n → word 2 p (k + 2) + add < 256 ^ W) →
    ∃ r, fill W p add q i n = .ok r ∧ r.size = q.size ∧ (∀ k, i ≤ k → k < i + n → word W r (k + 2) = word 2 p (k + 2) + add) ∧
      (∀ k, k < i + 2 ∨ i + n + 2 ≤ k → word W r k = word W q k) := by
  induction n with
  | zero => exact fun i q _ _ _ => ⟨q, rfl, rfl, fun k h1 h2 => absurd h2 (by omega), fun _ _ => rfl⟩
  | succ n ih =>
    intro i q hs hp hlt
    have e1 : W * (i + (n + 1) + 2) = W * (i + 1 + n + 2) := by congr 1; omega
    have hle : W * (i + 2) + W ≤ W * (i + 1 + n + 2) := mul_word_le (by omega)
    rw [e1] at hs
    obtain ⟨q1, s1, s2, s3, s4, s5⟩ := setWord_ok (W := W) (p := q) (k := i + 2) (word 2 p (i + 2) + add) (by omega)
    obtain ⟨q2, r1, r2, r3, r4⟩ := ih (i + 1) q1 (by omega) (by omega) fun k h1 h2 => hlt k (by omega) (by omega)
    refine ⟨q2, ?_, by omega, ?_, ?_⟩
    · rw [fill, if_neg (by omega), s1]
      exact r1
    · intro k h1 h2
      by_cases hk : k = i
      · subst hk
        rw [r4 (k + 2) (by omega), s3 (hlt k (by omega) (by omega))]
      · rw [r3 k (by omega) (by omega)]
    · intro k hk
      rw [r4 k (by omega), s4 k (by omega)]

theorem old_small {p : Pack} (h : Old p) : p.size < 65536 := by
  rw [← h.size]
  exact rd_lt _ 2 _

set_option maxHeartbeats 1000000 in
/-- The words and the bytes of the pack made. -/
theorem pack16_ok {W : Nat} (hW : W = 4 ∨ W = 8) {p : Pack} (h : Old p) : ∃ q add, pack16 W p = .ok q ∧ q.size = p.size + add ∧ word W q 0 = p.size + add ∧
    word W q 1 = word 2 p 1 ∧ (∀ i, i < word 2 p 1 → word W q (i + 2) = word 2 p (i + 2) + add) ∧
      ∀ x, 2 * words (word 2 p 1) ≤ x → x < p.size → q.mem (x + add) = p.mem x := by
  have hsm := old_small h
  obtain ⟨h0, hr, hpos⟩ := h
  have hpw : 65536 * 65536 ≤ 256 ^ W := by rcases hW with rfl | rfl <;> decide
  generalize hn : word 2 p 1 = n at *
  have hwn : words n = n + 2 + n % 2 := rfl
  have hr' : 2 * words n ≤ p.size := by rw [hwn]; exact hr
  obtain ⟨add, ha⟩ : ∃ add, add = words n * (W - 2) := ⟨_, rfl⟩
  have hWa : W * words n = 2 * words n + add := by
    rcases hW with rfl | rfl <;> simp only [ha] <;> omega
  have hadd : add ≤ 6 * words n := by rcases hW with rfl | rfl <;> simp only [ha] <;> omega
  have hW1 : W * 1 + W ≤ W * words n := mul_word_le (by omega)
  have hW0 : W * 0 + W ≤ W * words n := mul_word_le (by omega)
  have hWn : W * (0 + n + 2) ≤ W * words n := Nat.mul_le_mul_left W (by omega)
  obtain ⟨q0, a1, a2, a3, a4, a5⟩ := setWord_ok (W := W) (p := ⟨p.size + add, fun _ => 0⟩) (k := 0) (p.size + add) (by show _ ≤ p.size + add; omega)
  have a2' : q0.size = p.size + add := a2
  obtain ⟨q1, b1, b2, b3, b4, b5⟩ := setWord_ok (W := W) (p := q0) (k := 1) n (by omega)
  obtain ⟨q2, c1, c2, c3, c4⟩ := fill_ok (W := W) (p := p) add n 0 q1 (by omega) (by omega) fun k _ hk => by
    have := hpos k (by omega)
    omega
  have hlen : (bytes p.mem (words n * 2) (p.size + add - words n * W)).length = p.size - 2 * words n := by
    rw [bytes, List.length_map, List.length_range, Nat.mul_comm (words n) W]
    omega
  obtain ⟨q3, d1, d2, d3, d4⟩ := put_ok (W := W) (p := q2) (a := words n * W) (bytes p.mem (words n * 2) (p.size + add - words n * W)) (by
    rw [hlen, Nat.mul_comm (words n) W]
    omega)
  have hin : ∀ k, k < n + 2 → W * k + W ≤ words n * W := fun k hk => by
    rw [Nat.mul_comm (words n) W]
    exact mul_word_le (by omega)
  refine ⟨q3, add, ?_, by omega, ?_, ?_, ?_, ?_⟩
  · rw [pack16, if_neg (by omega)]
    simp only [hn, ← ha, h0, a1, bind, Res.bind, b1, c1]
    rw [if_neg (by rw [Nat.mul_comm (words n) W]; omega), if_neg (by rw [Nat.mul_comm (words n) W]; omega)]
    exact d1
  · rw [d3 0 (hin 0 (by omega)), c4 0 (by omega), b4 0 (by omega), a3 (by omega)]
  · rw [d3 1 (hin 1 (by omega)), c4 1 (by omega), b3 (by omega)]
  · intro i hi
    rw [d3 (i + 2) (hin _ (by omega)), c3 i (by omega) (by omega)]
  · intro x h1 h2
    rw [d4 (x + add) (by rw [Nat.mul_comm (words n) W]; omega) (by rw [hlen, Nat.mul_comm (words n) W]; omega), Nat.mul_comm (words n) W, Nat.mul_comm (words n) 2]
    rw [bytes, List.getD_eq_getElem?_getD, List.getElem?_map, List.getElem?_range (by omega)]
    simp only [Option.map_some, Option.getD_some]
    congr 1
    omega

/-- The pack made has as many elements as the old one, and the same bytes in each. -/
theorem C85_pieces {W : Nat} (hW : W = 4 ∨ W = 8) {p : Pack} (h : Old p) : ∃ q, pack16 W p = .ok q ∧ nb W q = nb 2 p ∧
    (∀ i : Nat, piece W q i = piece 2 p i) ∧ ∀ i : Nat, getLen W q i = getLen 2 p i := by
  obtain ⟨q, add, hq, hs, h0, h1, hp, hm⟩ := pack16_ok hW h
  have hsz : 0 < p.size := by have := h.room; omega
  refine ⟨q, hq, h1, ?_, ?_⟩
  · intro i
    unfold piece getPtr
    rw [h1]
    by_cases hi : (i : Int) < 0 ∨ (i : Int) > (word 2 p 1 : Int) - 1
    · rw [if_pos hi, if_pos hi]
      rfl
    · rw [if_neg hi, if_neg hi]
      have hi' : i < word 2 p 1 := by omega
      simp only [Int.toNat_natCast, Option.map_some, hp i hi', hs, Option.some.injEq]
      have hpos := h.pos i hi'
      rw [show p.size + add - (word 2 p (i + 2) + add) = p.size - word 2 p (i + 2) by omega, bytes, bytes]
      refine List.map_congr_left fun j hj => ?_
      rw [List.mem_range] at hj
      rw [show word 2 p (i + 2) + add + j = word 2 p (i + 2) + j + add by omega]
      exact hm _ (by unfold words; omega) (by omega)
  · intro i
    unfold getLen
    rw [h0, h1, h.size, if_neg (show ¬ p.size + add = 0 by omega), if_neg (show ¬ (i : Int) < 0 by omega), if_neg (show ¬ p.size = 0 by omega),
      if_neg (show ¬ (i : Int) < 0 by omega)]
    by_cases hi : (i : Int) > (word 2 p 1 : Int) - 1
    · rw [if_pos hi, if_pos hi]
    · rw [if_neg hi, if_neg hi]
      by_cases hl : (i : Int) = (word 2 p 1 : Int) - 1
      · rw [if_pos hl, if_pos hl]
        simp only [Int.toNat_natCast]
        rw [hp i (by omega)]
        omega
      · rw [if_neg hl, if_neg hl]
        simp only [Int.toNat_natCast]
        rw [hp i (by omega), show i + 3 = i + 1 + 2 by omega, hp (i + 1) (by omega)]
        omega

/-! ## Packs made by the older programs -/

theorem create_two : Layout 2 (create 2) [] :=
  ⟨rfl, by decide, by decide, fun i hi => by simp at hi, fun i e he => by simp at he⟩

/-- The older programs made packs in the same way, with words of 2 bytes. -/
theorem old_made (bufs : Nat → Nat → Byte) {es : List Elem} (hs : packSize 2 es < 65536) : ∃ p, toPack 2 bufs es = .ok p ∧ Layout 2 p es := by
  unfold packSize at hs
  obtain ⟨q, hq, hL⟩ := Layout.build (by omega) (withBufs bufs 0 es) create_two
    (by rw [withBufs_length, withBufs_map]; simp only [List.length_nil, Nat.zero_add, Pack.room]; omega)
  rw [withBufs_map] at hL
  exact ⟨q, hq, by simpa using hL⟩

theorem old_layout {p : Pack} {es : List Elem} (h : Layout 2 p es) : Old p := by
  have hh : 2 * (es.length + 2 + es.length % 2) = 2 * header es.length := by unfold header; omega
  refine ⟨h.w0.trans h.size.symm, ?_, ?_⟩
  · rw [h.w1, h.size, hh]
    omega
  · intro i hi
    rw [h.w1] at hi ⊢
    rw [h.pos i hi, h.size, hh]
    have := room_take_le es i
    omega

theorem old_holds {p : Pack} {es : List Elem} (h : Layout 2 p es) : Holds 2 p es := holds_of_layout (by omega) h (Nat.le_refl _) fun _ _ => rfl

theorem strn_eq {W i : Nat} {p q : Pack} (h1 : piece W q i = piece 2 p i) (h2 : getLen W q i = getLen 2 p i) : strn W q i = strn 2 p i := by
  unfold strn
  rw [h1, h2]

/-! ## Each type -/

section Types

variable {W : Nat} {bufs : Nat → Nat → Byte} {p : Pack} {es : List Elem} {name : List Char}

/-- Comments and lists: what is read from the pack made is what the words of 2 bytes give, for any old pack. -/
theorem C85_text (hW : W = 4 ∨ W = 8) (h : Old p) : ∃ q, convText W p = .ok q ∧ ∀ cp, (textKind W cp).read name q = (textKind 2 cp).read name p := by
  obtain ⟨q, hq, -, hp, hl⟩ := C85_pieces hW h
  refine ⟨q, hq, fun cp => ?_⟩
  show (strn W q 0).bind _ = (strn 2 p 0).bind _
  rw [strn_eq (hp 0) (hl 0)]

/-- The text of a comment or of a list written by an older program. -/
theorem C85_comment (hW : W = 4 ∨ W = 8) {o : Text} (h0 : (0 : Byte) ∉ o) (hs : o.length < 65000) : ∃ p q, toPack 2 bufs [.data (o ++ [0])] = .ok p ∧
    convText W p = .ok q ∧ ∀ cp, (textKind W cp).read name q = (oemToUtf8 cp o).bind fun t => .ok (some t) := by
  obtain ⟨p, hp, hL⟩ := old_made bufs (es := [.data (o ++ [0])]) (by
    simp only [packSize, header, Pack.room, List.length_cons, List.length_nil, Elem.lg, List.length_append]
    omega)
  obtain ⟨q, hq, hr⟩ := C85_text (name := name) hW (old_layout hL)
  refine ⟨p, q, hp, hq, fun cp => (hr cp).trans ?_⟩
  show (strn 2 p 0).bind _ = _
  rw [strn_holds (old_holds hL) (e := .data (o ++ [0])) rfl (r := []) rfl h0]
  rfl

/-- Identities: the formula, whatever the older program has put behind it. -/
theorem C85_identity (hW : W = 4 ∨ W = 8) {o : Text} (h0 : (0 : Byte) ∉ o) {es : List Elem} (hL : Layout 2 p (.data (o ++ [0]) :: es)) :
    ∃ q, convIdt W bufs p = .ok q ∧ ∀ cp valid, (idtKind W cp valid).read name q = (oemToUtf8 cp o).bind fun t => .ok (some (idtSetLec valid t)) := by
  obtain ⟨q, hq, -, hp, -⟩ := C85_pieces hW (old_layout hL)
  have hsm := old_small (old_layout hL)
  have hol : o.length < 65536 := by
    have := hL.size
    simp only [Pack.room, Elem.lg, List.length_append, List.length_cons, List.length_nil] at this
    omega
  obtain ⟨r, hr, -, -⟩ := (old_holds hL).elem 0 _ rfl
  obtain ⟨q', hq', hL'⟩ := toPack_layout hW bufs [.data (o ++ [0]), .zeros 0] (by
    rcases hW with rfl | rfl <;> simp only [packSize, header, Pack.room, List.length_cons, List.length_nil, Elem.lg, List.length_append] <;> omega)
  refine ⟨q', ?_, fun cp valid => ?_⟩
  · have hu : upTo (o ++ [0] ++ r) = .ok o := by
      rw [List.append_assoc]
      exact upTo_append h0
    rw [convIdt]
    simp only [hq, bind, Res.bind, hp, hr, Elem.bytes, hu]
    exact hq'
  · show (strn W q' 0).bind _ = _
    rw [strn_holds (holds_of_layout (by omega) hL' (Nat.le_refl _) fun _ _ => rfl) (e := .data (o ++ [0])) rfl (r := []) rfl h0]
    rfl

theorem read_words {q : Pack} {n : Nat} {vs : List Int} {w : Nat} (hH : Holds n q [.data (putWords w vs)]) :
    field (w * vs.length) (piece n q 0) = .ok (putWords w vs) := by
  have := field_holds hH (i := 0) (e := .data (putWords w vs)) rfl
  rw [Elem.lg, putWords_length] at this
  exact this

theorem words_back {w : Nat} {vs : List Int} (h : ∀ v ∈ vs, Fits w v) : getWords w vs.length (putWords w vs) = vs := by
  have := getWords_putWords w vs h []
  rwa [List.append_nil] at this

/-- Variables of version 2. -/
theorem C85_variable_same (hW : W = 4 ∨ W = 8) (h : Old p) (dbl : Int → Int) (n : Nat) :
    ∃ q, convVar W dbl bufs n 2 p = .ok q ∧ (varKind W n).read name q = (varKind 2 n).read name p := by
  obtain ⟨q, hq, -, hp, -⟩ := C85_pieces hW h
  refine ⟨q, ?_, ?_⟩
  · rw [convVar]
    simp only [hq, bind, Res.bind]
    rfl
  · show (match piece W q 0 with | none => _ | some l => _) = _
    rw [hp 0]
    rfl

/-- Variables of version 1: each value is converted. -/
theorem C85_variable (hW : W = 4 ∨ W = 8) {dbl : Int → Int} {vs : List Int} (hf : ∀ v ∈ vs, Fits 4 v) (hd : ∀ v ∈ vs, Fits 8 (dbl v))
    (hL : Layout 2 p [.data (putWords 4 vs)]) :
    ∃ q, convVar W dbl bufs vs.length 1 p = .ok q ∧ (varKind W vs.length).read name q = .ok (some (vs.map dbl)) := by
  obtain ⟨q, hq, -, hp, -⟩ := C85_pieces hW (old_layout hL)
  have hsm := old_small (old_layout hL)
  have hvl : 4 * vs.length < 65536 := by
    have := hL.size
    simp only [Pack.room, Elem.lg, putWords_length] at this
    omega
  obtain ⟨q', hq', hL'⟩ := toPack_layout hW bufs [.data (putWords 8 (vs.map dbl))] (by
    rcases hW with rfl | rfl <;> simp only [packSize, header, Pack.room, List.length_cons, List.length_nil, Elem.lg, putWords_length, List.length_map] <;> omega)
  have hH := holds_of_layout (by omega) hL' (Nat.le_refl _) fun _ _ => rfl
  refine ⟨q', ?_, ?_⟩
  · rw [convVar]
    simp only [hq, bind, Res.bind]
    rw [if_neg (by omega), hp 0, read_words (old_holds hL)]
    simp only [words_back hf]
    exact hq'
  · obtain ⟨r, hr, -, -⟩ := hH.elem 0 _ rfl
    have hw := read_words hH
    have hb := words_back (w := 8) (vs := vs.map dbl) (by simpa using hd)
    rw [List.length_map] at hw hb
    show (match piece W q' 0 with | none => _ | some l => _) = _
    rw [hr] at hw ⊢
    simp only [hw, Res.bind, hb]

/-- Scalars of version 2. -/
theorem C85_scalar_same (hW : W = 4 ∨ W = 8) (h : Old p) (dbl : Int → Int) :
    ∃ q, convScl W dbl bufs 2 p = .ok q ∧ (sclKind W).read name q = (sclKind 2).read name p := by
  obtain ⟨q, hq, -, hp, -⟩ := C85_pieces hW h
  refine ⟨q, ?_, ?_⟩
  · rw [convScl]
    simp only [hq, bind, Res.bind]
    rfl
  · show (match piece W q 0 with | none => _ | some l => _) = _
    rw [hp 0]
    rfl

/-- Scalars of version 1: the value, the relaxation and the standard error are converted. -/
theorem C85_scalar (hW : W = 4 ∨ W = 8) {dbl : Int → Int} {a b c : Int} (hf : ∀ v ∈ [a, b, c], Fits 4 v) (hd : ∀ v ∈ [a, b, c], Fits 8 (dbl v))
    (hL : Layout 2 p [.data (putWords 4 [a, b, c])]) :
    ∃ q, convScl W dbl bufs 1 p = .ok q ∧ (sclKind W).read name q = .ok (some ⟨dbl a, dbl b, dbl c⟩) := by
  obtain ⟨q, hq, -, hp, -⟩ := C85_pieces hW (old_layout hL)
  obtain ⟨q', hq', hL'⟩ := toPack_layout hW bufs [.data (putWords 8 [dbl a, dbl b, dbl c])] (by
    rcases hW with rfl | rfl <;> simp only [packSize, header, Pack.room, List.length_cons, List.length_nil, Elem.lg, putWords_length] <;> omega)
  have hH := holds_of_layout (by omega) hL' (Nat.le_refl _) fun _ _ => rfl
  refine ⟨q', ?_, ?_⟩
  · rw [convScl]
    simp only [hq, bind, Res.bind]
    have h1 := read_words (old_holds hL)
    have h2 := words_back hf
    simp only [List.length_cons, List.length_nil] at h1 h2
    rw [if_neg (by omega), hp 0, h1]
    simp only [h2]
    exact hq'
  · obtain ⟨r, hr, -, -⟩ := hH.elem 0 _ rfl
    have hw := read_words hH
    have hb := words_back (w := 8) (vs := [dbl a, dbl b, dbl c]) (by simpa using hd)
    simp only [List.length_cons, List.length_nil] at hw hb
    show (match piece W q' 0 with | none => _ | some l => _) = _
    rw [hr] at hw ⊢
    simp only [hw, Res.bind]
    simp only [getWords, List.drop_drop, List.cons.injEq, and_true] at hb
    rw [hb.1, hb.2.1, hb.2.2]

/-- A formula in a cell of a table is lost: its pack has words of `W` bytes already. -/
theorem C85_cell_counterexample (hW : W = 4 ∨ W = 8) {lec : Text} (hs : lec.length < 65000) (buf : Nat → Byte) (pack : Pack) :
    cellRepack W bufs buf pack lec = add W buf pack (.zeros 0) := by
  obtain ⟨o, ho, hL⟩ := toPack_layout hW bufs [.data (lec ++ [0]), .zeros 0] (by
    rcases hW with rfl | rfl <;> simp only [packSize, header, Pack.room, List.length_cons, List.length_nil, Elem.lg, List.length_append] <;> omega)
  have hsz : o.size < 65536 ∧ 8 ≤ o.size := by
    have := hL.size
    rcases hW with rfl | rfl <;> simp only [header, Pack.room, Elem.lg, List.length_append, List.length_cons, List.length_nil] at this <;> omega
  have h0 : word W o 0 = o.size := hL.w0.trans hL.size.symm
  have hsplit : word W o 0 = rd o.mem 0 2 + 256 ^ 2 * rd o.mem 2 (W - 2) := by
    rw [word, Nat.mul_zero, ← Nat.zero_add 2, ← rd_add, show 0 + 2 + (W - 2) = W by omega]
  have hrest : rd o.mem 2 (W - 2) = 0 := by omega
  have hlow : word 2 o 0 = o.size := by
    show rd o.mem 0 2 = _
    omega
  have hcount : word 2 o 1 = 0 := by
    show rd o.mem 2 2 = 0
    rw [show W - 2 = 2 + (W - 4) by omega, rd_add] at hrest
    omega
  have hold : Old o := ⟨hlow, by rw [hcount]; omega, fun i hi => by rw [hcount] at hi; omega⟩
  obtain ⟨q, hq, hn, -, -⟩ := C85_pieces hW hold
  have hn' : word W q 1 = 0 := hn.trans hcount
  have hpiece : piece W q 0 = none := by
    unfold piece getPtr
    rw [hn', if_pos (by simp)]
    rfl
  rw [cellRepack, lecRepack]
  simp only [ho, hq, bind, Res.bind, hpiece]

end Types

/-! ## Whole files -/

/-- An entry of the table of names. -/
def Entry (name : List Char) (e : List Byte) : Prop :=
  e.length = 16 ∧ (∀ c ∈ name, 0 < c.toNat ∧ c.toNat < 256) ∧ ∃ v r, v.length = 2 ∧ e = v ++ (name.map toByte ++ 0 :: r)

theorem entry_name {name : List Char} {e : List Byte} (h : Entry name e) : entryName ⟨2, 0⟩ e = name := by
  obtain ⟨-, hc, v, r, hv, rfl⟩ := h
  unfold entryName
  rw [List.drop_left' (by simpa using hv)]
  have h1 : ∀ l : List Char, (∀ c ∈ l, 0 < c.toNat ∧ c.toNat < 256) →
      ((l.map toByte ++ 0 :: r).takeWhile fun b => b.val ≠ 0).map (fun b => Char.ofNat b.val) = l := by
    intro l
    induction l with
    | nil => intro _; simp
    | cons c l ih =>
      intro h
      have := h c (by simp)
      rw [List.map_cons, List.cons_append, List.takeWhile_cons_of_pos (by
        simp only [toByte, Nat.mod_eq_of_lt this.2, ne_eq, decide_not, Bool.not_eq_true', decide_eq_false_iff_not]
        omega), List.map_cons, ih fun x hx => h x (by simp [hx])]
      simp [toByte, Nat.mod_eq_of_lt this.2]
  exact h1 name hc

theorem oldNames_table : ∀ {names : List (List Char)} {es : List (List Byte)}, List.Forall₂ Entry names es → oldNames names.length es.flatten = names
  | [], [], _ => rfl
  | n :: ns, e :: es, h => by
    obtain ⟨h1, h2⟩ := List.forall₂_cons.mp h
    rw [List.length_cons, oldNames, List.flatten_cons, List.take_left' h1.1, List.drop_left' h1.1, entry_name h1, oldNames_table h2]

theorem table_length : ∀ {names : List (List Char)} {es : List (List Byte)}, List.Forall₂ Entry names es → es.flatten.length = 16 * names.length
  | [], [], _ => rfl
  | n :: ns, e :: es, h => by
    obtain ⟨h1, h2⟩ := List.forall₂_cons.mp h
    rw [List.flatten_cons, List.length_append, h1.1, table_length h2, List.length_cons]
    omega

/-- A record: a pack of the older version, the conversion of which is read as this object. -/
def Record {α : Type} (conv : Pack → Res Pack) (K : Kind α) (x : List Char × α) (o : List Byte) : Prop :=
  Old ⟨o.length, mem o⟩ ∧ ∃ q, conv ⟨o.length, mem o⟩ = .ok q ∧ K.read x.1 q = .ok (some x.2)

theorem oldLoop_records {α : Type} {conv : Pack → Res Pack} {K : Kind α} : ∀ {l : List (List Char × α)} {os : List (List Byte)} {m : SMap α} (tail : List Byte),
    List.Forall₂ (Record conv K) l os → oldLoop conv K m (l.map Prod.fst) (os.flatten ++ tail) = .ok (l.foldl (fun m x => m.insert x.1 x.2) m)
  | [], [], _, _, _ => rfl
  | x :: l, o :: os, m, tail, h => by
    obtain ⟨⟨ho, q, hq, hr⟩, h2⟩ := List.forall₂_cons.mp h
    have hsz : (4 : Nat) ≤ o.length := by
      have := ho.room
      simp only at this
      omega
    have hlen : Pack.rd (mem (o ++ (os.flatten ++ tail))) 0 2 = o.length := by
      refine Eq.trans (rd_congr 2 fun x _ hx => ?_) ho.size
      show (o ++ (os.flatten ++ tail)).getD x 0 = o.getD x 0
      rw [List.getD_eq_getElem?_getD, List.getElem?_append_left (by omega), ← List.getD_eq_getElem?_getD]
    rw [List.map_cons, List.flatten_cons, List.append_assoc, oldLoop, if_neg (by simp only [List.length_append]; omega), hlen, kread_append (by omega)]
    simp only [bind, Res.bind, hq, hr]
    exact oldLoop_records tail h2

/-- A file of an older version: the objects, in the order of the file, a name twice having the last one. -/
theorem C85_file {α : Type} {conv : Pack → Res Pack} {K : Kind α} {l : List (List Char × α)} (hl : l ≠ []) {es os : List (List Byte)} (tail : List Byte)
    (he : List.Forall₂ Entry (l.map Prod.fst) es) (ho : List.Forall₂ (Record conv K) l os) :
    loadOld conv K l.length (es.flatten ++ (os.flatten ++ tail)) = .ok (l.foldl (fun m x => m.insert x.1 x.2) []) := by
  have hlen := table_length he
  rw [List.length_map] at hlen
  have hpos := List.length_pos_iff.mpr hl
  rw [loadOld, ← hlen, kread_append (by omega)]
  simp only [bind, Res.bind]
  have := oldNames_table he
  rw [List.length_map] at this
  rw [this]
  exact oldLoop_records tail ho

theorem layout_list {p : Pack} {es : List Elem} (h : Layout 2 p es) : Layout 2 ⟨(packList p).length, mem (packList p)⟩ es := by
  have hl := packList_length p
  have hw : ∀ k, 2 * k + 2 ≤ p.size → word 2 ⟨(packList p).length, mem (packList p)⟩ k = word 2 p k := fun k hk =>
    rd_same (p := p) (q := ⟨(packList p).length, mem (packList p)⟩) (Nat.le_of_eq hl.symm) (fun x hx => mem_packList p hx) hk
  have hg := header_gt es.length
  have hs := h.size
  refine ⟨hl.trans hs, ?_, ?_, ?_, ?_⟩
  · rw [hw 0 (by omega), h.w0]
  · rw [hw 1 (by omega), h.w1]
  · intro i hi
    rw [hw (i + 2) (by omega), h.pos i hi]
  · intro i e he j hj
    have h1 := room_split he
    have h2 := padded_gt e.lg
    rw [← h.data i e he j hj]
    exact mem_packList p (by omega)

/-- What an older program wrote for a text `t`, which is `o` in its character set. -/
def Wrote (cp : CodePage) (t : Text) (b : List Byte) : Prop :=
  ∃ o bufs p, (0 : Byte) ∉ o ∧ oemToUtf8 cp o = .ok t ∧ packSize 2 [.data (o ++ [0])] < 65536 ∧ toPack 2 bufs [.data (o ++ [0])] = .ok p ∧ b = packList p

/-- A file of comments or of lists of an older version: each name gets its text. -/
theorem C85_texts {W : Nat} (hW : W = 4 ∨ W = 8) {cp : CodePage} {l : List (List Char × Text)} (hl : l ≠ []) {es os : List (List Byte)} (tail : List Byte)
    (he : List.Forall₂ Entry (l.map Prod.fst) es) (ho : List.Forall₂ (fun x b => Wrote cp x.2 b) l os) :
    loadOld (convText W) (textKind W cp) l.length (es.flatten ++ (os.flatten ++ tail)) = .ok (l.foldl (fun m x => m.insert x.1 x.2) []) := by
  refine C85_file hl tail he (ho.imp ?_)
  rintro ⟨n, t⟩ b ⟨o, bufs, p, h0, ht, hs, hp, rfl⟩
  obtain ⟨p', hp', hL⟩ := old_made bufs hs
  obtain rfl : p' = p := by
    rw [hp] at hp'
    exact (Res.ok.inj hp').symm
  have hL' := layout_list hL
  obtain ⟨q, hq, hr⟩ := C85_text (name := n) hW (old_layout hL')
  refine ⟨old_layout hL', q, hq, (hr cp).trans ?_⟩
  show (strn 2 _ 0).bind _ = _
  rw [strn_holds (old_holds hL') (e := .data (o ++ [0])) rfl (r := []) rfl h0]
  simp only [Res.bind, ht]

/-! ## Examples -/

/-- The pack with words of 2 bytes of the text `ab`: size, one element, its position, a word that is not used, the text. -/
def exPack : Pack := ⟨12, fun x => [12, 0, 1, 0, 8, 0, 0, 0, 97, 98, 0, 7].getD x 0⟩

theorem exPack_old : Old exPack := ⟨by decide, by decide, by decide⟩

example : ∃ q, pack16 8 exPack = .ok q ∧ nb 8 q = 1 ∧ (∀ i : Nat, piece 8 q i = piece 2 exPack i) ∧ ∀ i : Nat, getLen 8 q i = getLen 2 exPack i :=
  C85_pieces (.inr rfl) exPack_old

example : piece 2 exPack 0 = some [97, 98, 0, 7] ∧ getLen 2 exPack 0 = 4 := by decide

theorem exPack_layout : Layout 2 exPack [.data ([97, 98] ++ [0])] := by
  refine ⟨by decide, by decide, by decide, by decide, ?_⟩
  intro i e he j hj
  match i with
  | 0 =>
    obtain rfl : Elem.data ([97, 98] ++ [0]) = e := by simpa using he
    have : j = 0 ∨ j = 1 ∨ j = 2 := by simp [Elem.lg] at hj; omega
    rcases this with rfl | rfl | rfl <;> decide
  | i + 1 => simp at he

example (name : List Char) : ∃ q, convIdt 4 (fun _ _ => 0) exPack = .ok q ∧
    ∀ cp valid, (idtKind 4 cp valid).read name q = (oemToUtf8 cp [97, 98]).bind fun t => .ok (some (idtSetLec valid t)) :=
  C85_identity (.inl rfl) (by decide) exPack_layout

/-- Two periods, in single precision. -/
theorem exVar : ∃ p, Layout 2 p [.data (putWords 4 [1065353216, -1082130432])] :=
  (old_made (fun _ _ => 0) (by decide +kernel)).imp fun _ h => h.2

example (name : List Char) (dbl : Int → Int) (h : ∀ v, Fits 8 (dbl v)) : ∃ p q, convVar 8 dbl (fun _ _ => 0) 2 1 p = .ok q ∧
    (varKind 8 2).read name q = .ok (some [dbl 1065353216, dbl (-1082130432)]) := by
  obtain ⟨p, hp⟩ := exVar
  obtain ⟨q, h1, h2⟩ := C85_variable (name := name) (bufs := fun _ _ => 0) (W := 8) (.inr rfl) (by unfold Fits; decide) (fun v _ => h v) hp
  simp only [List.length_cons, List.length_nil, List.map_cons, List.map_nil, Nat.zero_add, Nat.reduceAdd] at h1 h2
  exact ⟨p, q, h1, h2⟩

example (name : List Char) (dbl : Int → Int) (h : ∀ v, Fits 8 (dbl v)) : ∃ p q, convScl 8 dbl (fun _ _ => 0) 1 p = .ok q ∧
    (sclKind 8).read name q = .ok (some ⟨dbl 1, dbl 2, dbl 3⟩) := by
  obtain ⟨p, -, hp⟩ := old_made (fun _ _ => 0) (es := [.data (putWords 4 [1, 2, 3])]) (by decide +kernel)
  obtain ⟨q, h1, h2⟩ := C85_scalar (name := name) (bufs := fun _ _ => 0) (W := 8) (.inr rfl) (by unfold Fits; decide) (fun v _ => h v) hp
  exact ⟨p, q, h1, h2⟩

/-- A file with the comments `A` and `B`. -/
example (cp : CodePage) (hc : cp.dec [97, 98] = some [97, 98]) : ∃ os, loadOld (convText 8) (textKind 8 cp) 2
    ([[0, 0] ++ (['A'].map toByte ++ 0 :: List.replicate 12 0), [0, 0] ++ (['B'].map toByte ++ 0 :: List.replicate 12 0)].flatten ++ (os ++ [])) =
      .ok [(['A'], [97, 98]), (['B'], [97, 98])] := by
  obtain ⟨p, hp, -⟩ := old_made (fun _ _ => 0) (es := [.data ([97, 98] ++ [0])]) (by decide +kernel)
  have hw : Wrote cp [97, 98] (packList p) :=
    ⟨[97, 98], fun _ _ => 0, p, by decide, by rw [oemToUtf8, show cstr [97, 98] = [97, 98] by decide +kernel, hc]; rfl, by decide +kernel, hp, rfl⟩
  have he : ∀ c, 0 < c.toNat ∧ c.toNat < 256 → Entry [c] ([0, 0] ++ ([c].map toByte ++ 0 :: List.replicate 12 0)) :=
    fun c hc => ⟨by simp, by simpa using hc, [0, 0], _, rfl, rfl⟩
  have h := C85_texts (W := 8) (.inr rfl) (cp := cp) (l := [(['A'], [97, 98]), (['B'], [97, 98])]) (by simp) []
    (.cons (he 'A' (by decide)) (.cons (he 'B' (by decide)) .nil)) (.cons hw (.cons hw .nil))
  have hf : ([(['A'], [97, 98]), (['B'], [97, 98])] : List (List Char × Text)).foldl (fun m x => SMap.insert x.1 x.2 m) [] =
      [(['A'], [97, 98]), (['B'], [97, 98])] := by decide +kernel
  rw [hf] at h
  exact ⟨_, h⟩

end Iode.ObjVers
