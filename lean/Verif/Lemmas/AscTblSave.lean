import Verif.Lemmas.Fixed6

/-! # The elements of texts that are written for tables -/
namespace Iode
namespace Asc
namespace Tables
open Yy Written Printf Decimals
open Texts (Coded Fits toOem_coded)
open Equations (clean_append clean_cons clean_plain clean_carried clean_escape)
open Lec (Clean)
open Lec.Written (Gap NameEnd NumEnd NameCh Digit White Digits dec)

/-! ## Pieces -/

/-- A text of these elements that does not touch what is behind it, without characters that are dropped. -/
structure Piece (ts : List TTok) (x : Yy.Text) : Prop where
  chunk : ∀ ts' s, Toks ts' s → Toks (ts ++ ts') (x ++ s)
  clean : Clean x

theorem Piece.append {ts us : List TTok} {x y : Yy.Text} (h1 : Piece ts x) (h2 : Piece us y) : Piece (ts ++ us) (x ++ y) := by
  refine ⟨fun ts' s h => ?_, clean_append h1.clean h2.clean⟩
  rw [List.append_assoc, List.append_assoc]
  exact h1.chunk _ _ (h2.chunk _ _ h)

theorem piece_nil : Piece [] [] := ⟨fun _ _ h => h, by simp [Lec.Clean]⟩

theorem gap_append {a b : Yy.Text} (ha : Gap a) (hb : Gap b) : Gap (a ++ b) := by
  induction ha with
  | nil => exact hb
  | white h _ ih => exact .white h ih
  | @block b' g h _ ih =>
    rw [List.cons_append, List.cons_append, List.append_assoc, List.cons_append, List.cons_append]
    exact .block h ih
  | @line b' g h _ ih =>
    rw [List.cons_append, List.cons_append, List.append_assoc, List.cons_append]
    exact .line h ih

theorem toks_gap {g : Yy.Text} (hg : Gap g) {ts : List TTok} {s : Yy.Text} (h : Toks ts s) : Toks ts (g ++ s) := by
  cases h with
  | nil h => exact .nil (gap_append hg h)
  | word h a b c d e => rw [← List.append_assoc]; exact .word (gap_append hg h) a b c d e
  | int h a b c d e => rw [← List.append_assoc]; exact .int (gap_append hg h) a b c d e
  | num h a b c d => rw [← List.append_assoc]; exact .num (gap_append hg h) a b c d
  | sign h a b => rw [← List.append_assoc]; exact .sign (gap_append hg h) a b
  | str h a b => rw [← List.append_assoc]; exact .str (gap_append hg h) a b

theorem piece_gap {g : Yy.Text} (hg : Gap g) (hc : Clean g) : Piece [] g := ⟨fun _ _ h => toks_gap hg h, hc⟩

theorem piece_space : Piece [] [' '] := piece_gap (.white (by decide) .nil) (by simp only [Lec.Clean]; decide)

theorem piece_line : Piece [] ['\n'] := piece_gap (.white (by decide) .nil) (by simp only [Lec.Clean]; decide)

theorem white_ends {c : Char} (h : c = ' ' ∨ c = '\n') (s : Yy.Text) : NameEnd (c :: s) ∧ NumEnd (c :: s) ∧ Gap [c] ∧ Clean [c] := by
  rcases h with rfl | rfl
  · exact ⟨by intro c hc; cases hc; decide, by intro c hc; cases hc; decide, .white (by decide) .nil, by simp only [Lec.Clean]; decide⟩
  · exact ⟨by intro c hc; cases hc; decide, by intro c hc; cases hc; decide, .white (by decide) .nil, by simp only [Lec.Clean]; decide⟩

theorem piece_word {w : Yy.Text} (hne : w ≠ []) (hh : ∀ c, w.head? = some c → ¬ Digit c) (hw : ∀ c ∈ w, NameCh c) {c : Char}
    (hc : c = ' ' ∨ c = '\n') : Piece [.word w] (w ++ [c]) := by
  refine ⟨fun ts' s h => ?_, clean_append (clean_plain fun c hc => Lec.nameCh_plain (hw c hc)) (white_ends hc []).2.2.2⟩
  have := Toks.word (g := []) .nil hne hh hw (white_ends hc s).1 (toks_gap (white_ends hc []).2.2.1 h)
  simpa using this

/-- Words that can be key words. -/
def Wordy (w : Yy.Text) : Prop := w ≠ [] ∧ (w.head?.all fun c => decide (¬ Digit c)) = true ∧ ∀ c ∈ w, NameCh c

instance (w : Yy.Text) : Decidable (Wordy w) := inferInstanceAs (Decidable (_ ∧ _ ∧ _))

theorem piece_kw {s : String} {x : Yy.Text} (hx : x = s.toList ++ [' ']) (hw : Wordy s.toList) : Piece [kw s] x := by
  rw [hx]
  refine piece_word hw.1 (fun c hc => ?_) hw.2.2 (.inl rfl)
  have := hw.2.1
  rw [hc] at this
  simpa using this

theorem piece_int (n : Nat) (hn : n < 10 ^ 9) {c : Char} (hc : c = ' ' ∨ c = '\n') : Piece [.int n] (natToChars n ++ [c]) := by
  refine ⟨fun ts' s h => ?_, clean_append (clean_plain fun c hc => Lec.nameCh_plain (Lec.digit_nameCh (natToChars_digits n c hc)))
    (white_ends hc []).2.2.2⟩
  have := Toks.int (g := []) .nil (natToChars_digits n) (natToChars_ne_nil n) (natToChars_length (by omega) hn) (white_ends hc s).2.1
    (toks_gap (white_ends hc []).2.2.1 h)
  rw [dec_natToChars] at this
  simpa using this

theorem piece_num {t : Yy.Text} {r : Rat} (ht : Numeral t r) (hl : t.length < 255) : Piece [.num r] (t ++ [' ']) := by
  refine ⟨fun ts' s h => ?_, clean_append (clean_plain (numeral_plain ht)) (by simp only [Lec.Clean]; decide)⟩
  have := Toks.num (g := []) .nil ht hl (white_ends (.inl rfl) s).2.1 (toks_gap (white_ends (.inl rfl) []).2.2.1 h)
  simpa using this

theorem piece_sign {c : Char} (hc : c = '-' ∨ c = '{' ∨ c = '}') : Piece [.sign c] [c] := by
  refine ⟨fun ts' s h => Toks.sign (g := []) .nil hc h, ?_⟩
  rcases hc with rfl | rfl | rfl <;> (simp only [Lec.Clean]; decide)

theorem piece_str {t b : Yy.Text} (h : Lit t b) (hc : Clean b) : Piece [.str t] ('"' :: (b ++ ['"'])) := by
  refine ⟨fun ts' s hs => ?_, clean_cons (by simp only [Lec.Clean]; decide) (clean_append hc (by simp only [Lec.Clean]; decide))⟩
  have := Toks.str (g := []) .nil h hs
  simpa using this

/-! ## Cells -/

/-- The marks that are written. -/
def marksOf (a : Nat) : List Mark :=
  (if a % 2 = 1 then [.bold] else []) ++ ((if a / 2 % 2 = 1 then [.italic] else []) ++ ((if a / 4 % 2 = 1 then [.underline] else []) ++
  (if a / 8 * 8 = 8 then [.center] else if a / 8 * 8 = 64 then [.decimal] else if a / 8 * 8 = 16 then [.left]
   else if a / 8 * 8 = 32 then [.right] else [])))

theorem piece_attr (a : Nat) : Piece ((marksOf a).map fun m => kw m.name) (printAttr a) := by
  unfold marksOf printAttr
  simp only [List.map_append]
  refine .append ?_ (.append ?_ (.append ?_ ?_))
  · split
    · exact piece_kw (s := "BOLD") (by decide) (by decide +kernel)
    · exact piece_nil
  · split
    · exact piece_kw (s := "ITALIC") (by decide) (by decide +kernel)
    · exact piece_nil
  · split
    · exact piece_kw (s := "UNDERLINE") (by decide) (by decide +kernel)
    · exact piece_nil
  · split
    · exact piece_kw (s := "CENTER") (by decide) (by decide +kernel)
    · split
      · exact piece_kw (s := "DECIMAL") (by decide) (by decide +kernel)
      · split
        · exact piece_kw (s := "LEFT") (by decide) (by decide +kernel)
        · split
          · exact piece_kw (s := "RIGHT") (by decide) (by decide +kernel)
          · exact piece_nil

/-- The alignment that is read, and the fonts. -/
def attrBack (dflt a : Nat) : Nat :=
  (if a / 8 * 8 = 8 ∨ a / 8 * 8 = 16 ∨ a / 8 * 8 = 32 ∨ a / 8 * 8 = 64 then a / 8 * 8 else dflt) + a % 8

theorem form_marks (dflt a : Nat) : formOf dflt (marksOf a) = attrBack dflt a := by
  have hb : ∀ (b i u : Bool) (d : Nat) (o : Option Mark), o ∈ [none, some Mark.center, some .decimal, some .left, some .right] →
      formOf d ((if b then [.bold] else []) ++ ((if i then [.italic] else []) ++ ((if u then [.underline] else []) ++ o.toList))) =
      ((o.bind Mark.align?).getD d) + ((if b then 1 else 0) + (if i then 2 else 0) + (if u then 4 else 0)) := by
    intro b i u d o ho
    simp only [List.mem_cons, List.not_mem_nil, or_false] at ho
    rcases ho with rfl | rfl | rfl | rfl | rfl <;> cases b <;> cases i <;> cases u <;> rfl
  have e : marksOf a = (if decide (a % 2 = 1) then [.bold] else []) ++ ((if decide (a / 2 % 2 = 1) then [.italic] else []) ++
      ((if decide (a / 4 % 2 = 1) then [.underline] else []) ++
        (if a / 8 * 8 = 8 then some Mark.center else if a / 8 * 8 = 64 then some .decimal else if a / 8 * 8 = 16 then some .left
         else if a / 8 * 8 = 32 then some .right else none).toList)) := by
    unfold marksOf
    simp only [decide_eq_true_eq]
    congr 3
    split
    · rfl
    · split
      · rfl
      · split
        · rfl
        · split <;> rfl
  rw [e, hb]
  · unfold attrBack
    have hf : ((if decide (a % 2 = 1) then 1 else 0) + (if decide (a / 2 % 2 = 1) then 2 else 0) + (if decide (a / 4 % 2 = 1) then 4 else 0)) =
        a % 8 := by
      simp only [decide_eq_true_eq]
      split <;> split <;> split <;> omega
    rw [hf]
    congr 1
    by_cases h1 : a / 8 * 8 = 8
    · simp [h1, Mark.align?]
    · by_cases h2 : a / 8 * 8 = 64
      · simp [h2, Mark.align?]
      · by_cases h3 : a / 8 * 8 = 16
        · simp [h3, Mark.align?]
        · by_cases h4 : a / 8 * 8 = 32
          · simp [h4, Mark.align?]
          · simp [h1, h2, h3, h4]
  · simp only [List.mem_cons, List.not_mem_nil, or_false]
    split
    · simp
    · split
      · simp
      · split
        · simp
        · split <;> simp

/-- The pieces of what is written. -/
def Pieces (ts : List TTok) (ps : List (Option Yy.Text)) : Prop := ∃ xs : List Yy.Text, ps = xs.map some ∧ Piece ts xs.flatten

theorem pieces_nil : Pieces [] [] := ⟨[], rfl, piece_nil⟩

theorem Pieces.append {ts us : List TTok} {ps qs : List (Option Yy.Text)} (h1 : Pieces ts ps) (h2 : Pieces us qs) :
    Pieces (ts ++ us) (ps ++ qs) := by
  obtain ⟨xs, rfl, h1⟩ := h1
  obtain ⟨ys, rfl, h2⟩ := h2
  exact ⟨xs ++ ys, by simp, by rw [List.flatten_append]; exact h1.append h2⟩

theorem pieces_one {ts : List TTok} {x : Yy.Text} (h : Piece ts x) : Pieces ts [some x] :=
  ⟨[x], rfl, by simpa using h⟩

theorem Pieces.cons {ts us : List TTok} {x : Yy.Text} {ps : List (Option Yy.Text)} (h1 : Piece ts x) (h2 : Pieces us ps) :
    Pieces (ts ++ us) (some x :: ps) := (pieces_one h1).append h2

theorem written_pieces {ts : List TTok} {ps : List (Option Yy.Text)} (h : Pieces ts ps) :
    (written ps).1 = true ∧ Piece ts (written ps).2 := by
  obtain ⟨xs, rfl, h⟩ := h
  have : ∀ xs : List Yy.Text, written (xs.map some) = (true, xs.flatten) := by
    intro xs
    induction xs with
    | nil => rfl
    | cons x xs ih => simp only [List.map_cons, written, ih, List.flatten_cons]
  rw [this]
  exact ⟨rfl, h⟩

/-- The content of a cell. -/
def content (c : TCell) : Yy.Text :=
  match c.body with
  | .str t => t
  | .lec l => l.getD []

/-- A formula. -/
def isLec (c : TCell) : Bool :=
  match c.body with
  | .str _ => false
  | .lec _ => true

/-- A cell that can be written: `o` is the content in the code page. -/
structure Prints (cv : Conv) (c : TCell) (o : Yy.Text) : Prop where
  noNul : ∀ x ∈ content c, x.toNat ≠ 0
  coded : Coded cv (content c) o
  carried : Carried o
  carets : Carets o
  quotes : isLec c = true → ∀ x ∈ o, x ≠ '"' ∧ x ≠ '\\'

theorem print_empty {cv : Conv} {c : TCell} (h : content c = []) : printCell cv c = some ['"', '"', ' '] := by
  obtain ⟨b, a⟩ := c
  cases b with
  | str t =>
    cases h
    rfl
  | lec l =>
    have : l.getD [] = [] := h
    simp only [printCell, this, List.isEmpty_nil, if_true]

theorem piece_empty : Piece (SCell.mk false [] []).toks ['"', '"', ' '] := by
  have := (piece_str (t := []) (b := []) .nil (by simp [Lec.Clean])).append piece_space
  exact this

theorem piece_cell {cv : Conv} {c : TCell} {o : Yy.Text} (h : Prints cv c o) (hne : content c ≠ []) :
    ∃ x, printCell cv c = some x ∧ Piece (SCell.mk (isLec c) o (marksOf c.attr)).toks x := by
  obtain ⟨h0, h1, h2, h3, h4⟩ := h
  have ho := toOem_coded h1 h0
  obtain ⟨b, a⟩ := c
  cases b with
  | str t =>
    simp only [content] at hne h0 ho
    have hx := (piece_str (Texts.lit_escape h2 h3) (clean_escape h2)).append (piece_space.append (piece_attr a))
    refine ⟨'"' :: (escape o ++ '"' :: ' ' :: printAttr a), ?_, ?_⟩
    · simp only [printCell]
      rw [if_neg (by simpa using hne), ho]
      rfl
    · simpa [SCell.toks, isLec] using hx
  | lec l =>
    simp only [content] at hne h0 ho
    have hk : Piece [kw "LEC"] ['L', 'E', 'C', ' '] := piece_kw (by decide) (by decide +kernel)
    have hx := hk.append ((piece_str (Texts.lit_plain h2 h3 (h4 rfl)) (clean_carried h2)).append (piece_space.append (piece_attr a)))
    refine ⟨['L', 'E', 'C', ' ', '"'] ++ (cstr o ++ '"' :: ' ' :: printAttr a), ?_, ?_⟩
    · simp only [printCell]
      rw [if_neg (by simpa using hne), ho]
      rfl
    · rw [cstr_self fun c hc => (h2 c hc).1]
      simpa [SCell.toks, isLec] using hx

/-! ## Other parts -/

theorem wrDef_word {d : Nat} {s : String} (h : (tblKeys.find? fun e => e.2 = d) = some (s.toList, d)) (hw : Wordy s.toList) :
    ∃ x, wrDef d = .ok x ∧ Piece [kw s] x := by
  refine ⟨s.toList ++ [' '], ?_, piece_kw rfl hw⟩
  rw [wrDef, h]

theorem piece_graph (right : Bool) (g : Nat) :
    Piece (gtoks [if right then .raxis else .laxis, if g = 2 then .bar else .line]) (printGraph right g) := by
  unfold printGraph
  have h1 : Piece [kw (if right then GMark.raxis else .laxis).name]
      (if right then [' ', 'R', 'A', 'X', 'I', 'S', ' '] else [' ', 'L', 'A', 'X', 'I', 'S', ' ']) := by
    cases right with
    | false => exact piece_space.append (piece_kw (s := "LAXIS") (x := ['L', 'A', 'X', 'I', 'S', ' ']) (by decide) (by decide +kernel))
    | true => exact piece_space.append (piece_kw (s := "RAXIS") (x := ['R', 'A', 'X', 'I', 'S', ' ']) (by decide) (by decide +kernel))
  have h2 : Piece [kw (if g = 2 then GMark.bar else .line).name]
      (if g = 2 then [' ', 'G', 'R', 'B', 'A', 'R', ' '] else [' ', 'G', 'R', 'L', 'I', 'N', 'E', ' ']) := by
    split
    · exact piece_space.append (piece_kw (s := "GRBAR") (x := ['G', 'R', 'B', 'A', 'R', ' ']) (by decide) (by decide +kernel))
    · exact piece_space.append (piece_kw (s := "GRLINE") (x := ['G', 'R', 'L', 'I', 'N', 'E', ' ']) (by decide) (by decide +kernel))
  exact h1.append h2

theorem piece_break : Piece [.sign '-'] ['\n', '-', ' '] :=
  piece_line.append ((piece_sign (.inl rfl)).append piece_space)

/-- The entries of a bound. -/
def boundEntry (b : Bound) (v : Dbl) : List SEntry :=
  match v with
  | .num q => if isNumber v then [.bound b (decide (q < 0)) |dec6 q|] else []
  | _ => []

/-- The bounds that can be written. -/
def BoundOk (v : Dbl) : Prop := isNumber v = false ∨ ∃ q, v = .num q ∧ Single q

theorem single_size {q : Rat} (h : Single q) : |q| < (10 : Rat) ^ 39 := lt_trans h.2 (by norm_num)

theorem piece_bound {b : Bound} {key : Yy.Text} (hk : b.name.toList = key) {v : Dbl} (hv : BoundOk v) :
    Piece ((boundEntry b v).flatMap SEntry.toks) (printBound key v) := by
  have hname : ∀ b : Bound, Wordy b.name.toList := by intro b; cases b <;> decide +kernel
  unfold boundEntry printBound
  by_cases hn : isNumber v = true
  · rcases hv with h | ⟨q, rfl, hq⟩
    · rw [hn] at h; cases h
    · rw [if_pos hn]
      simp only [hn, if_true]
      obtain ⟨t, h1, h2, h3⟩ := fmtF_numeral q (single_size hq)
      have hw : Piece [kw b.name] (key ++ [' ']) := piece_kw (by rw [hk]) (hname b)
      have hnum := piece_num h1 (by omega)
      rw [h3]
      by_cases hq0 : q < 0
      · rw [if_pos hq0, decide_eq_true hq0]
        have := piece_line.append (hw.append ((piece_sign (.inl rfl)).append hnum))
        simpa [SEntry.toks] using this
      · rw [if_neg hq0, decide_eq_false hq0]
        have := piece_line.append (hw.append hnum)
        simpa [SEntry.toks] using this
  · rw [if_neg hn]
    have : boundEntry b v = [] := by
      unfold boundEntry
      cases v with
      | num q => simp only [hn]; rfl
      | _ => rfl
    unfold boundEntry at this
    rw [this]
    exact piece_nil

theorem piece_align {a : Int} {s : Side} (h : s.code = a) : Piece (SEntry.align s).toks (printAlign a) := by
  have h0 : Piece [kw "ALIGN"] ['A', 'L', 'I', 'G', 'N', ' '] := piece_kw (by decide) (by decide +kernel)
  subst h
  cases s with
  | left => exact piece_line.append (h0.append (piece_kw (s := "LEFT") (x := ['L', 'E', 'F', 'T', ' ']) (by decide) (by decide +kernel)))
  | center =>
    exact piece_line.append (h0.append (piece_kw (s := "CENTER") (x := ['C', 'E', 'N', 'T', 'E', 'R', ' ']) (by decide) (by decide +kernel)))
  | right =>
    exact piece_line.append (h0.append (piece_kw (s := "RIGHT") (x := ['R', 'I', 'G', 'H', 'T', ' ']) (by decide) (by decide +kernel)))

theorem piece_settings (b a x y : Nat) (hb : b < 128) (ha : a < 128) (hx : x < 128) (hy : y < 128) :
    Piece ([SEntry.set .box b, .set .axis a, .set .xgrid x, .set .ygrid y].flatMap SEntry.toks)
      (['\n', 'B', 'O', 'X', ' '] ++ (intToChars b ++ ([' ', 'A', 'X', 'I', 'S', ' '] ++ (intToChars a ++
        ([' ', 'X', 'G', 'R', 'I', 'D', ' '] ++ (intToChars x ++ ([' ', 'Y', 'G', 'R', 'I', 'D', ' '] ++
          (intToChars y ++ [' ']))))))))  := by
  have e : ∀ n : Nat, intToChars n = natToChars n := by
    intro n
    rw [intToChars, if_neg (by omega)]
    rfl
  rw [e, e, e, e]
  have k1 : Piece [kw "BOX"] ['B', 'O', 'X', ' '] := piece_kw (by decide) (by decide +kernel)
  have k2 : Piece [kw "AXIS"] ['A', 'X', 'I', 'S', ' '] := piece_kw (by decide) (by decide +kernel)
  have k3 : Piece [kw "XGRID"] ['X', 'G', 'R', 'I', 'D', ' '] := piece_kw (by decide) (by decide +kernel)
  have k4 : Piece [kw "YGRID"] ['Y', 'G', 'R', 'I', 'D', ' '] := piece_kw (by decide) (by decide +kernel)
  have := piece_line.append (k1.append ((piece_int b (by omega) (.inl rfl)).append (k2.append ((piece_int a (by omega) (.inl rfl)).append
    (k3.append ((piece_int x (by omega) (.inl rfl)).append (k4.append (piece_int y (by omega) (.inl rfl)))))))))
  simpa [SEntry.toks, Setting.name] using this

theorem piece_dim (n : Nat) (hn : n < 2 ^ 15) : Piece (dimToks (some n)) (['\n', 'D', 'I', 'M', ' '] ++ (intToChars n ++ ['\n'])) := by
  have k : Piece [kw "DIM"] ['D', 'I', 'M', ' '] := piece_kw (by decide) (by decide +kernel)
  have := piece_line.append (k.append (piece_int n (by omega) (c := '\n') (.inr rfl)))
  rw [intToChars, if_neg (by omega)]
  simpa [dimToks] using this

theorem piece_lang (l : Lang) : ∃ x, wrDef l.code = .ok x ∧ Piece (SEntry.lang l).toks x := by
  cases l with
  | english => exact wrDef_word (s := "ENGLISH") (by decide +kernel) (by decide +kernel)
  | dutch => exact wrDef_word (s := "DUTCH") (by decide +kernel) (by decide +kernel)
  | french => exact wrDef_word (s := "FRENCH") (by decide +kernel) (by decide +kernel)

theorem piece_end : Piece [] "\n/* END OF TABLE */\n".toList := by
  refine piece_gap ?_ (by simp only [Lec.Clean]; decide +kernel)
  have : "\n/* END OF TABLE */\n".toList = '\n' :: '/' :: '*' :: (" END OF TABLE ".toList ++ '*' :: '/' :: ['\n']) := by decide +kernel
  rw [this]
  exact .white (by decide) (.block (by decide +kernel) (.white (by decide) .nil))

end Tables
end Asc
end Iode
