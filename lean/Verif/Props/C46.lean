import Verif.Model.Tbl
import Verif.Props.C45

/-!
# C46  A table survives being saved in binary format

A table is written as one pack: the header, the headers of the divider cells, their contents, the headers of the lines, and
for each line the headers of its cells and their contents. Reading keeps a position in the pack, so every content that is
announced must have been written and conversely.

The claim is false of tables with a cell whose formula does not compile (`C46_bad_formula_counterexample`), of separator,
mode, files and date lines with a graph type or the right axis (`C46_line_settings_counterexample`), and of texts that begin or end
with a double quote (`C46_quotes_counterexample`); `C46_tables_partial` is all others. Comparing tables is wrong as well:
a table is only equal to itself if both its grids are the same (`C46_equal_iff`).
-/
namespace Iode
namespace Tbl
open Pack BinFile Obj

/-! ### Fields -/

theorem putFields_cons (f : Nat × Int) (fs : List (Nat × Int)) : putFields (f :: fs) = putWord f.1 f.2 ++ putFields fs := rfl

theorem putFields_length (fs : List (Nat × Int)) : (putFields fs).length = (fs.map (·.1)).sum := by
  induction fs with
  | nil => rfl
  | cons f fs ih => rw [putFields_cons, List.length_append, ih, putWord_length]; rfl

/-- The value read from a field of this width. -/
def wrap (f : Nat × Int) : Int := getWord f.1 (putWord f.1 f.2)

theorem getFields_putFields (fs : List (Nat × Int)) : ∀ r, getFields (fs.map (·.1)) (putFields fs ++ r) = fs.map wrap := by
  induction fs with
  | nil => intro r; rfl
  | cons f fs ih =>
    intro r
    simp only [List.map_cons, getFields, putFields_cons, List.append_assoc]
    rw [drop_length_append (putWord_length f.1 f.2).symm, ih, getWord_append (by rw [putWord_length]; exact Nat.le_refl _)]
    rfl

theorem wrap_fits {w : Nat} {v : Int} (h : Fits w v) : wrap (w, v) = v := getWord_putWord' h

theorem wrap_parity (v : Int) : wrap (1, v) % 2 = v % 2 := by
  have e : putWord 1 v = putWord 1 (Int.bmod v 256) := by
    unfold putWord
    have : Int.bmod v 256 % 256 ^ 1 = v % 256 ^ 1 := by
      show Int.bmod v 256 % 256 = v % 256
      exact Int.bmod_emod
    rw [this]
  have hb1 : -128 ≤ Int.bmod v 256 := Int.le_bmod (by decide)
  have hb2 : Int.bmod v 256 < 128 := Int.bmod_lt (by decide)
  unfold wrap
  simp only
  rw [e, getWord_putWord' (by constructor <;> omega)]
  have : Int.bmod v 256 % 256 = v % 256 := Int.bmod_emod
  omega

theorem bit0_wrap (r : Bool) (u : Int) : bit0 (wrap (1, (if r then 1 else 0) + 2 * u)) = r := by
  unfold bit0
  rw [wrap_parity]
  cases r
  · simp
  · simp only [if_true]
    have : (1 + 2 * u) % 2 = 1 := by omega
    simp [this]

variable {W : Nat} {cp : CodePage} {valid : Text → Bool}

/-! ### Tables that can be restored -/

/-- A text that does not begin or end with a double quote. -/
def Unquoted (t : Text) : Prop := t.head? ≠ some 34 ∧ t.getLast? ≠ some 34

/-- A content that can be restored. -/
def BodyOk (cp : CodePage) (valid : Text → Bool) : Body → Prop
  | .str t => Unquoted t ∧ ∃ o, Clean cp t o
  | .lec none => True
  | .lec (some l) => ∃ o, IdtOk cp valid l o ∧ o.length + 100 < 2 ^ 31

/-- A cell that can be restored. -/
def CellOk (cp : CodePage) (valid : Text → Bool) (c : Cell) : Prop := Fits 1 c.attr ∧ BodyOk cp valid c.body

/-- A separator, mode, files or date line. -/
def Plain (l : Line) : Prop := l.type = tSep ∨ l.type = tMode ∨ l.type = tFiles ∨ l.type = tDate

instance (l : Line) : Decidable (Plain l) := by unfold Plain; infer_instance

/-- A line that can be written in a table with `n` columns. -/
def LineOk (cp : CodePage) (valid : Text → Bool) (n : Nat) (l : Line) : Prop :=
  Fits 1 l.graph ∧ ((l.type = tCell ∧ l.cells.length = n ∧ ∀ c ∈ l.cells, CellOk cp valid c) ∨
    (l.type = tTitle ∧ l.cells.length = 1 ∧ ∀ c ∈ l.cells, CellOk cp valid c) ∨ Plain l)

/-- What is kept of a line: a separator, mode, files or date line loses its settings. -/
def Line.kept (l : Line) : Line := if Plain l then ⟨l.type, 0, false, []⟩ else l

/-- What is kept of a table. -/
def Table.kept (t : Table) : Table := { t with lines := t.lines.map Line.kept }

/-- A table that can be restored: a divider line of formulas, the first one set. -/
structure TblOk (cp : CodePage) (valid : Text → Bool) (t : Table) : Prop where
  language : Fits 2 t.language
  rep : Fits 2 t.repeatCols
  ncols : 1 ≤ t.ncols ∧ t.ncols < 32768
  nlines : t.lines.length < 32768
  div : t.divider.type = tCell ∧ Fits 1 t.divider.graph ∧ (t.divider.cells.length : Int) = t.ncols
  divCells : ∀ c ∈ t.divider.cells, CellOk cp valid c ∧ ∃ l, c.body = .lec l
  divFirst : ∀ c, t.divider.cells.head? = some c → c.body ≠ .lec none
  lines : ∀ l ∈ t.lines, LineOk cp valid t.ncols.toNat l
  floats : Fits 4 t.zmin ∧ Fits 4 t.zmax ∧ Fits 4 t.ymin ∧ Fits 4 t.ymax
  chars : Fits 1 t.attr ∧ Fits 1 t.box ∧ Fits 1 t.shadow ∧ Fits 1 t.gridx ∧ Fits 1 t.gridy ∧ Fits 1 t.axis ∧ Fits 1 t.align

/-! ### One cell -/

theorem setText_unquoted {t : Text} (h : Unquoted t) : setText t = .ok t := by
  cases t with
  | nil => rfl
  | cons b r =>
    obtain ⟨h1, h2⟩ := h
    have hb : b ≠ 34 := by intro e; subst e; exact h1 rfl
    simp only [setText, if_neg hb]
    cases hl : (b :: r).getLast? with
    | none => simp at hl
    | some c =>
      simp only
      rw [if_neg (by intro e; subst e; exact h2 hl)]

theorem setLec_ok {l o : Text} (h : IdtOk cp valid l o) : setLec valid l = some l := by
  unfold setLec idtSetLec
  rw [if_neg (by simpa using h.ne), h.v1, if_pos rfl]

/-- The contents of a cell are written, and read from the same position. -/
theorem cell_back (hW : W = 4 ∨ W = 8) (bufs : Nat → Nat → Byte) {c : Cell} (hc : CellOk cp valid c) :
    ∃ es, cellElems W cp valid bufs c = .ok es ∧ ∀ (q : Pack) (all : List Elem) (p : Nat) (rest : List Elem),
      Holds W q all → all.drop p = es ++ rest → ∀ j,
      ∃ h, (∀ r, readCell32 W (putFields (cell32 W j c) ++ r) = .ok h) ∧
        readCell W cp valid q p h.1 h.2.1 h.2.2 = .ok (c, p + es.length) := by
  obtain ⟨b, attr⟩ := c
  obtain ⟨ha, hb⟩ := hc
  simp only at ha hb
  have hw : 2 * W = W + (1 + (1 + (2 + (W - 4 + 0)))) := by omega
  have one : Fits W 1 := by rcases hW with rfl | rfl <;> constructor <;> decide
  have zero : Fits W 0 := by rcases hW with rfl | rfl <;> constructor <;> decide
  have hLec : Fits 1 cLec := by constructor <;> decide
  have hStr : Fits 1 cStr := by constructor <;> decide
  have read32 : ∀ (v ty : Int), Fits W v → Fits 1 ty → ∀ j r,
      readCell32 W (putFields [(W, v), (1, ty), (1, attr), (2, 0), (W - 4, j)] ++ r) = .ok (v, ty, attr) := by
    intro v ty hv hty j r
    unfold readCell32
    have hl : (putFields [(W, v), (1, ty), (1, attr), (2, 0), (W - 4, j)]).length = 2 * W := by
      rw [putFields_length]; exact hw.symm
    simp only [field]
    rw [if_neg (by rw [List.length_append]; omega), ← hl, List.take_left]
    have e : putFields [(W, v), (1, ty), (1, attr), (2, 0), (W - 4, j)] =
        putFields [(W, v), (1, ty), (1, attr)] ++ putFields [(2, 0), (W - 4, j)] := by
      simp only [putFields, List.flatMap_cons, List.flatMap_nil, List.append_nil, List.append_assoc]
    have g := getFields_putFields [(W, v), (1, ty), (1, attr)] (putFields [(2, 0), (W - 4, j)])
    rw [← e] at g
    simp only [List.map_cons, List.map_nil, wrap_fits hv, wrap_fits hty, wrap_fits ha] at g
    simp only [Res.bind, g]
  have get : ∀ (all : List Elem) (p : Nat) (e : Elem) (rest : List Elem), all.drop p = e :: rest → all[p]? = some e := by
    intro all p e rest h
    have : (all.drop p)[0]? = some e := by rw [h]; rfl
    rw [List.getElem?_drop] at this
    simpa using this
  cases b with
  | str t =>
    obtain ⟨hu, o, ho⟩ := hb
    refine ⟨[.data (o ++ [0])], by simp only [cellElems, ho.enc, Res.bind, cstr_id ho.noNul], ?_⟩
    intro q all p rest hq hd j
    refine ⟨(1, cStr, attr), read32 1 cStr one hStr j, ?_⟩
    obtain ⟨r, hp, _, _⟩ := hq.elem p _ (get all p _ _ hd)
    have hup : upTo ((Elem.data (o ++ [0])).bytes ++ r) = .ok o := by
      simp only [Elem.bytes, List.append_assoc, List.cons_append, List.nil_append]
      exact upTo_append ho.noNul
    simp only [readCell]
    rw [if_neg (by decide)]
    simp only [fromBinary, decide_true, if_true, hp, Res.bind, hup, ho.dec, setText_unquoted hu, List.length_cons,
      List.length_nil]
  | lec l =>
    cases l with
    | none =>
      refine ⟨[], rfl, ?_⟩
      intro q all p rest hq hd j
      refine ⟨(0, cLec, attr), read32 0 cLec zero hLec j, ?_⟩
      simp only [readCell, if_true]
      rw [if_neg (by decide)]
      rfl
    | some l =>
      obtain ⟨o, ho, hsz⟩ := hb
      obtain ⟨pk, hpk, hL⟩ := toPack_layout hW bufs [.data (o ++ [0]), .zeros 0] (by
        simp only [packSize, room, List.length_cons, List.length_nil, Elem.lg, List.length_append]
        have : header 2 = 4 := rfl
        rcases hW with rfl | rfl <;> simp only [this] <;> omega)
      have hw1 : idtWrite cp valid l = .ok [.data (o ++ [0]), .zeros 0] := by
        simp only [idtWrite, ho.clean.enc, Res.bind, cstr_id ho.clean.noNul, ho.v2, if_true]
        rw [if_neg (by simpa using ho.ne)]
      have hset : idtSetLec valid l = l := by unfold idtSetLec; rw [ho.v1, if_pos rfl]
      refine ⟨[.data (packList pk)], ?_, ?_⟩
      · simp only [cellElems]
        rw [if_neg (by simpa using ho.ne), hset]
        simp only [idtElem, ho.clean.enc, Res.bind, hw1, hpk]
      · intro q all p rest hq hd j
        refine ⟨(1, cLec, attr), read32 1 cLec one hLec j, ?_⟩
        obtain ⟨r, hp, _, _⟩ := hq.elem p _ (get all p _ _ hd)
        simp only [Elem.bytes] at hp
        have hlen : (packList pk ++ r).length = pk.size + r.length := by rw [List.length_append, packList_length]
        have hin : Holds W ⟨(packList pk ++ r).length, BinFile.mem (packList pk ++ r)⟩ [.data (o ++ [0]), .zeros 0] := by
          refine holds_of_layout (by omega) hL (by rw [hlen]; simp) ?_
          intro x hx
          show BinFile.mem (packList pk ++ r) x = _
          rw [mem_append_left (by rw [packList_length]; exact hx), mem_packList pk hx]
        obtain ⟨r2, hp2, _, _⟩ := hin.elem 0 _ rfl
        have hup : upTo ((Elem.data (o ++ [0])).bytes ++ r2) = .ok o := by
          simp only [Elem.bytes, List.append_assoc, List.cons_append, List.nil_append]
          exact upTo_append ho.clean.noNul
        have hns : nestedStr W (packList pk ++ r) = .ok o := by
          unfold nestedStr
          have hsz := hL.size
          have : header 2 = 4 := rfl
          simp only [List.length_cons, List.length_nil, Nat.reduceAdd, this] at hsz
          rw [if_neg (by rw [hlen]; omega), hp2]
          exact hup
        simp only [readCell]
        rw [if_neg (by decide)]
        have hd2 : decide (cLec = cStr) = false := by decide
        simp only [fromBinary, hd2, Bool.false_eq_true, if_false, hp, Res.bind, hns, ho.clean.dec, setLec_ok ho,
          List.length_cons, List.length_nil]

theorem cell32_length (hW : W = 4 ∨ W = 8) (j : Int) (c : Cell) : (putFields (cell32 W j c)).length = 2 * W := by
  rw [putFields_length]
  unfold cell32
  split <;> simp only [List.map_cons, List.map_nil, List.sum_cons, List.sum_nil] <;> omega

theorem cells32_length (hW : W = 4 ∨ W = 8) (junk : Nat → Int) (cs : List Cell) : ∀ k,
    (cells32 W junk k cs).length = 2 * W * cs.length := by
  induction cs with
  | nil => intro k; rfl
  | cons c cs ih =>
    intro k
    simp only [cells32, List.length_append, cell32_length hW, ih, List.length_cons, Nat.mul_succ]
    omega

/-- The cells of a line. -/
theorem cells_back (hW : W = 4 ∨ W = 8) (bufs : Nat → Nat → Nat → Byte) (junk : Nat → Int) (cs : List Cell) : ∀ k,
    (∀ c ∈ cs, CellOk cp valid c) →
    ∃ es, cellsElems W cp valid bufs k cs = .ok es ∧ ∀ (q : Pack) (all : List Elem) (p : Nat) (rest : List Elem),
      Holds W q all → all.drop p = es ++ rest → ∀ r,
      readCells W cp valid q cs.length (cells32 W junk k cs ++ r) p = .ok (cs, p + es.length) := by
  induction cs with
  | nil => intro k _; exact ⟨[], rfl, fun q all p rest _ _ r => rfl⟩
  | cons c cs ih =>
    intro k h
    obtain ⟨e1, hw1, hr1⟩ := cell_back hW (bufs k) (h c (by simp))
    obtain ⟨e2, hw2, hr2⟩ := ih (k + 1) (fun x hx => h x (by simp [hx]))
    refine ⟨e1 ++ e2, by simp only [cellsElems, hw1, hw2, Res.bind], ?_⟩
    intro q all p rest hq hd r
    obtain ⟨hd32, h1, h2⟩ := hr1 q all p (e2 ++ rest) hq (by rw [hd, List.append_assoc]) (junk k)
    have hd2 : all.drop (p + e1.length) = e2 ++ rest := by
      rw [← List.drop_drop, hd, List.append_assoc, List.drop_left]
    have h3 := hr2 q all (p + e1.length) rest hq hd2 r
    simp only [List.length_cons, readCells, cells32, List.append_assoc]
    rw [h1]
    simp only [Res.bind, h2]
    rw [drop_length_append (cell32_length hW (junk k) c).symm, h3]
    simp only [List.length_append, Nat.add_assoc]

/-! ### Lines -/

theorem line_back (hW : W = 4 ∨ W = 8) (nz : TNoise) (n : Nat) (i : Nat) {l : Line} (hl : LineOk cp valid n l) :
    ∃ es, lineElems W cp valid nz n i l = .ok es ∧ ∀ (q : Pack) (all : List Elem) (p : Nat) (rest : List Elem),
      Holds W q all → all.drop p = es ++ rest → ∀ bits, bit0 bits = l.right →
      readLine W cp valid q n l.type l.graph bits p = .ok (some l.kept, p + es.length) := by
  obtain ⟨type, graph, right, cells⟩ := l
  obtain ⟨_, htype⟩ := hl
  simp only at htype
  have get : ∀ (all : List Elem) (p : Nat) (e : Elem) (rest : List Elem), all.drop p = e :: rest →
      all[p]? = some e ∧ all.drop (p + 1) = rest := by
    intro all p e rest h
    have h0 : (all.drop p)[0]? = some e := by rw [h]; rfl
    rw [List.getElem?_drop] at h0
    refine ⟨by simpa using h0, ?_⟩
    rw [← List.drop_drop, h]
    rfl
  rcases htype with ⟨ht, hlen, hcells⟩ | ⟨ht, hlen, hcells⟩ | ht
  · subst ht
    have hk : Line.kept ⟨tCell, graph, right, cells⟩ = ⟨tCell, graph, right, cells⟩ :=
      if_neg (by simp only [Plain]; decide)
    rw [hk]
    obtain ⟨es, hw, hr⟩ := cells_back hW (nz.bufs i) (nz.cellPad i) cells 0 hcells
    refine ⟨.data (cells32 W (nz.cellPad i) 0 cells) :: es, ?_, ?_⟩
    · simp only [lineElems, if_true]
      rw [if_neg (by omega), hw]
      simp only [Res.bind, Int.toNat_natCast]
      rw [List.take_of_length_le (by rw [cells32_length hW, hlen]; exact Nat.le_refl _)]
    · intro q all p rest hq hd bits hb
      obtain ⟨h1, h2⟩ := get all p _ _ hd
      obtain ⟨r, hp, _, _⟩ := hq.elem p _ h1
      simp only [Elem.bytes] at hp
      have h3 := hr q all (p + 1) rest hq h2 r
      rw [hlen] at h3
      simp only [readLine, if_true, hp, Int.toNat_natCast, h3, Res.bind, hb, List.length_cons]
      rw [show p + 1 + es.length = p + (es.length + 1) by omega]
  · subst ht
    have hk : Line.kept ⟨tTitle, graph, right, cells⟩ = ⟨tTitle, graph, right, cells⟩ :=
      if_neg (by simp only [Plain]; decide)
    rw [hk]
    cases cells with
    | nil => simp at hlen
    | cons c cs =>
      have hcs : cs = [] := by simpa using hlen
      subst hcs
      obtain ⟨es, hw, hr⟩ := cells_back hW (nz.bufs i) (nz.cellPad i) [c] 0 hcells
      have hw' : cellElems W cp valid (nz.bufs i 0) c = .ok es := by
        simp only [cellsElems] at hw
        obtain ⟨a, h1, h2⟩ := bind_inv hw
        simp only [Res.bind, List.append_nil] at h2
        rw [h1]; exact h2
      refine ⟨.data (putFields (cell32 W (nz.cellPad i 0) c)) :: es, ?_, ?_⟩
      · simp only [lineElems]
        rw [if_neg (by decide), if_pos trivial]
        simp only [hw', Res.bind]
      · intro q all p rest hq hd bits hb
        obtain ⟨h1, h2⟩ := get all p _ _ hd
        obtain ⟨r, hp, _, _⟩ := hq.elem p _ h1
        simp only [Elem.bytes] at hp
        have h3 := hr q all (p + 1) rest hq h2 r
        simp only [List.length_cons, List.length_nil, Nat.zero_add, cells32, List.append_nil] at h3
        simp only [readLine]
        rw [if_neg (by decide), if_pos trivial]
        simp only [hp, h3, Res.bind, hb, List.length_cons]
        rw [show p + 1 + es.length = p + (es.length + 1) by omega]
  · have hk : Line.kept ⟨type, graph, right, cells⟩ = ⟨type, 0, false, []⟩ := if_pos ht
    rw [hk]
    simp only [Plain] at ht
    have h1 : type ≠ tCell := by rcases ht with h | h | h | h <;> rw [h] <;> decide
    have h2 : type ≠ tTitle := by rcases ht with h | h | h | h <;> rw [h] <;> decide
    refine ⟨[], by simp only [lineElems, if_neg h1, if_neg h2], ?_⟩
    intro q all p rest _ _ bits _
    simp only [readLine, if_neg h1, if_neg h2, if_pos ht, List.length_nil, Nat.add_zero]

theorem type_fits {l : Line} {n : Nat} (h : LineOk cp valid n l) : Fits 1 l.type := by
  obtain ⟨_, h⟩ := h
  rcases h with ⟨h, _⟩ | ⟨h, _⟩ | h | h | h | h <;> rw [h] <;> constructor <;> decide

theorem line32_length (hW : W = 4 ∨ W = 8) (nz : TNoise) (i : Nat) (l : Line) : (putFields (line32 W nz i l)).length = 2 * W := by
  rw [putFields_length]
  simp only [line32, List.map_cons, List.map_nil, List.sum_cons, List.sum_nil]
  omega

theorem lines_back (hW : W = 4 ∨ W = 8) (nz : TNoise) (n : Nat) (ls : List Line) : ∀ i, (∀ l ∈ ls, LineOk cp valid n l) →
    ∃ es, linesElems W cp valid nz n i ls = .ok es ∧ ∀ (q : Pack) (all : List Elem) (p : Nat),
      Holds W q all → all.drop p = es → ∀ r,
      readLines W cp valid q n ls.length (lines32 W nz i ls ++ r) p = .ok (ls.map Line.kept) := by
  induction ls with
  | nil => intro i _; exact ⟨[], rfl, fun q all p _ _ r => rfl⟩
  | cons l ls ih =>
    intro i h
    have hl := h l (by simp)
    obtain ⟨e1, hw1, hr1⟩ := line_back hW nz n i hl
    obtain ⟨e2, hw2, hr2⟩ := ih (i + 1) (fun x hx => h x (by simp [hx]))
    refine ⟨e1 ++ e2, by simp only [linesElems, hw1, hw2, Res.bind], ?_⟩
    intro q all p hq hd r
    have hd2 : all.drop (p + e1.length) = e2 := by
      rw [← List.drop_drop, hd, List.drop_left]
    have h3 := hr2 q all (p + e1.length) hq hd2 r
    simp only [List.length_cons, readLines, lines32, List.append_assoc, field]
    have hlen := line32_length hW nz i l
    rw [if_neg (by rw [List.length_append]; omega), ← hlen, List.take_left]
    simp only [Res.bind]
    have e : putFields (line32 W nz i l) =
        putFields [(W, nz.linePtr i), (1, l.type), (1, l.graph), (1, (if l.right then 1 else 0) + 2 * nz.lineBits i)] ++
          putFields [(1, 0), (W - 4, nz.linePad i)] := by
      simp only [line32, putFields, List.flatMap_cons, List.flatMap_nil, List.append_nil, List.append_assoc]
    have g := getFields_putFields [(W, nz.linePtr i), (1, l.type), (1, l.graph),
      (1, (if l.right then 1 else 0) + 2 * nz.lineBits i)] (putFields [(1, 0), (W - 4, nz.linePad i)])
    rw [← e] at g
    simp only [List.map_cons, List.map_nil, wrap_fits (type_fits hl), wrap_fits hl.1] at g
    rw [g]
    simp only
    rw [hr1 q all p e2 hq hd _ (bit0_wrap l.right (nz.lineBits i))]
    simp only
    rw [drop_length_append rfl, h3]
    rfl

/-! ### The table -/

theorem sanitize_id (cs : List Cell) : ∀ first, (∀ c ∈ cs, ∃ l, c.body = .lec l) →
    (first = true → ∀ c, cs.head? = some c → c.body ≠ .lec none) → sanitizeAll valid first cs = cs := by
  induction cs with
  | nil => intro _ _ _; rfl
  | cons c cs ih =>
    intro first h h0
    obtain ⟨l, hl⟩ := h c (by simp)
    have : sanitizeDiv valid first c = c := by
      obtain ⟨b, a⟩ := c
      simp only at hl
      subst hl
      simp only [sanitizeDiv]
      rw [if_neg]
      rintro ⟨hf, hn⟩
      exact h0 hf _ rfl (by rw [hn])
    simp only [sanitizeAll, this, ih false (fun x hx => h x (by simp [hx])) (by simp)]

theorem table32_length (hW : W = 4 ∨ W = 8) (nz : TNoise) (t : Table) : (putFields (table32 W nz t)).length = 40 + 4 * W := by
  rw [putFields_length]
  simp only [table32, line32, List.map_cons, List.map_nil, List.map_append, List.sum_append, List.sum_cons, List.sum_nil]
  omega

/-- The elements of a table are written, and the table is read from any block that begins with a pack of
    them, without the settings of separator, mode, files and date lines. -/
theorem tbl_back (hW : W = 4 ∨ W = 8) (nz : TNoise) {t : Table} (h : TblOk cp valid t) :
    ∃ es, tblWrite W cp valid nz t = .ok es ∧ ∀ q, Holds W q es → tblRead W cp valid q = .ok (some t.kept) := by
  obtain ⟨n, hn⟩ : ∃ n : Nat, t.ncols = n := ⟨t.ncols.toNat, by have := h.ncols; omega⟩
  have hcols := h.ncols
  have hlines := h.lines
  rw [hn, Int.toNat_natCast] at hlines
  obtain ⟨ds, hw1, hr1⟩ := cells_back hW (nz.bufs 0) (nz.cellPad 0) t.divider.cells 0 (fun c hc => (h.divCells c hc).1)
  obtain ⟨ls, hw2, hr2⟩ := lines_back hW nz n t.lines 1 hlines
  refine ⟨[.data (putFields (table32 W nz t)), .data (cells32 W (nz.cellPad 0) 0 t.divider.cells)] ++ ds ++
      [.data (lines32 W nz 1 t.lines)] ++ ls, by simp only [tblWrite, hn, hw1, hw2, Res.bind], ?_⟩
  intro q hq
  generalize hall : ([.data (putFields (table32 W nz t)), .data (cells32 W (nz.cellPad 0) 0 t.divider.cells)] ++ ds ++
      [.data (lines32 W nz 1 t.lines)] ++ ls : List Elem) = all at hq
  have a0 : all[0]? = some (.data (putFields (table32 W nz t))) := by rw [← hall]; rfl
  have a1 : all[1]? = some (.data (cells32 W (nz.cellPad 0) 0 t.divider.cells)) := by rw [← hall]; rfl
  have a2 : all.drop 2 = ds ++ (.data (lines32 W nz 1 t.lines) :: ls) := by
    rw [← hall]
    simp
  have a3 : all.drop (2 + ds.length) = .data (lines32 W nz 1 t.lines) :: ls := by
    rw [← List.drop_drop, a2, List.drop_left]
  have a3' : all[2 + ds.length]? = some (.data (lines32 W nz 1 t.lines)) := by
    have : (all.drop (2 + ds.length))[0]? = some (.data (lines32 W nz 1 t.lines)) := by rw [a3]; rfl
    rw [List.getElem?_drop] at this
    simpa using this
  have a4 : all.drop (2 + ds.length + 1) = ls := by
    rw [← List.drop_drop, a3]; rfl
  obtain ⟨r1, hp1, _, _⟩ := hq.elem 1 _ a1
  obtain ⟨r3, hp3, _, _⟩ := hq.elem _ _ a3'
  simp only [Elem.bytes] at hp1 hp3
  have hdlen : t.divider.cells.length = n := by have := h.div.2.2; omega
  have c1 := hr1 q all 2 _ hq a2 r1
  rw [hdlen] at c1
  have c2 := hr2 q all _ hq a4 r3
  have hf := field_lg hq (i := 0) a0 (table32_length hW nz t)
  unfold tblRead
  rw [hf]
  simp only [Res.bind]
  have e : putFields (table32 W nz t) = putFields ([(2, t.language), (2, t.repeatCols), (2, t.ncols), (2, (t.lines.length : Int))] ++
      line32 W nz 0 t.divider ++ [(W, nz.tblPtr), (4, t.zmin), (4, t.zmax), (4, t.ymin), (4, t.ymax), (1, t.attr), (1, t.box),
      (1, t.shadow), (1, t.gridx), (1, t.gridy), (1, t.axis), (1, t.align)]) ++ putFields [(13, 0), (W - 4, nz.tblPad)] := by
    simp only [table32, line32, putFields, List.flatMap_cons, List.flatMap_nil, List.flatMap_append, List.append_nil,
      List.append_assoc]
  have g := getFields_putFields ([(2, t.language), (2, t.repeatCols), (2, t.ncols), (2, (t.lines.length : Int))] ++
      line32 W nz 0 t.divider ++ [(W, nz.tblPtr), (4, t.zmin), (4, t.zmax), (4, t.ymin), (4, t.ymax), (1, t.attr), (1, t.box),
      (1, t.shadow), (1, t.gridx), (1, t.gridy), (1, t.axis), (1, t.align)]) (putFields [(13, 0), (W - 4, nz.tblPad)])
  rw [← e] at g
  have hwid : widths32 W = ([(2, t.language), (2, t.repeatCols), (2, t.ncols), (2, (t.lines.length : Int))] ++
      line32 W nz 0 t.divider ++ [(W, nz.tblPtr), (4, t.zmin), (4, t.zmax), (4, t.ymin), (4, t.ymax), (1, t.attr), (1, t.box),
      (1, t.shadow), (1, t.gridx), (1, t.gridy), (1, t.axis), (1, t.align)] : List (Nat × Int)).map (fun x => x.1) := rfl
  rw [← hwid] at g
  rw [g]
  have hnl := h.nlines
  have f1 : Fits 2 t.ncols := by constructor <;> omega
  have f2 : Fits 2 (t.lines.length : Int) := by constructor <;> omega
  obtain ⟨z1, z2, z3, z4⟩ := h.floats
  obtain ⟨k1, k2, k3, k4, k5, k6, k7⟩ := h.chars
  simp only [line32, List.cons_append, List.nil_append, List.map_cons, List.map_nil, wrap_fits h.language, wrap_fits h.rep,
    wrap_fits f1, wrap_fits f2, wrap_fits z1, wrap_fits z2, wrap_fits z3, wrap_fits z4, wrap_fits k1, wrap_fits k2,
    wrap_fits k3, wrap_fits k4, wrap_fits k5, wrap_fits k6, wrap_fits k7, wrap_fits h.div.2.1, readBody, bit0_wrap]
  have hmax : max 1 t.ncols.toNat = n := by omega
  rw [hmax, hn]
  simp only [hp1, c1, Res.bind, hp3, Int.toNat_natCast, c2]
  rw [sanitize_id t.divider.cells true (fun c hc => (h.divCells c hc).2) (fun _ => h.divFirst)]
  obtain ⟨lang, rep, nc, ⟨ty, gr, ri, dc⟩, lns, b1, b2, b3, b4, b5, b6, b7, b8, b9, b10, b11⟩ := t
  have hty := h.div.1
  simp only at hn hty
  subst hn hty
  rfl

/-- **C46** for one table: it is written without undefined behaviour, whatever members that are never set contain, and
    reading its pack gives the table, except that separator, mode, files and date lines lose their graph type and axis. -/
theorem C46_pack (hW : W = 4 ∨ W = 8) (nz : TNoise) (bufs : Nat → Nat → Byte) {t : Table} (h : TblOk cp valid t)
    (hN : ∀ es, tblWrite W cp valid nz t = .ok es → packSize W es < 2 ^ 31) :
    ∃ es p, tblWrite W cp valid nz t = .ok es ∧ toPack W bufs es = .ok p ∧ tblRead W cp valid p = .ok (some t.kept) := by
  obtain ⟨es, hw, hr⟩ := tbl_back hW nz h
  obtain ⟨p, hp, hL⟩ := toPack_layout hW bufs es (hN es hw)
  exact ⟨es, p, hw, hp, hr p (holds_of_layout (by omega) hL (Nat.le_refl _) (fun _ _ => rfl))⟩

theorem kept_id {t : Table} (h : ∀ l ∈ t.lines, Plain l → l.graph = 0 ∧ l.right = false ∧ l.cells = []) : t.kept = t := by
  have : t.lines.map Line.kept = t.lines := by
    have : t.lines.map Line.kept = t.lines.map id := by
      apply List.map_congr_left
      intro l hl
      unfold Line.kept
      split
      · rename_i hp
        obtain ⟨h1, h2, h3⟩ := h l hl hp
        obtain ⟨ty, g, r, c⟩ := l
        simp only at h1 h2 h3
        subst h1 h2 h3
        rfl
      · rfl
    rw [this, List.map_id]
  unfold Table.kept
  rw [this]

/-- **C46** (partial). Saving a workspace of tables and loading the file gives the same tables. Missing: tables with a cell
    whose formula does not compile, with a text that begins or ends with a double quote, and with separator, mode, files or
    date lines that have a graph type or the right axis, for which the claim is false; and tables whose divider has a text
    or an empty first cell, which `binary_to_tbl` replaces on purpose. -/
theorem C46_tables_partial {N : Nat} {cod : Codec} {L : BinFile.Layout} (hW : W = 4 ∨ W = 8) (hN : N < 2 ^ 31)
    (hc : cod.Lossless W N) (junk : Nat → Byte) (bufs : List Char → Nat → Nat → Byte) (compress : Bool) (data : List Byte)
    (nz : TNoise) (m : SMap Table) (hne : m ≠ []) (hs : SMap.Sorted m) (hn : ∀ e ∈ m, NameFits e.1)
    (hN1 : L.size * m.length ≤ N)
    (hx : ∀ e ∈ m, TblOk cp valid e.2 ∧ (∀ l ∈ e.2.lines, Plain l → l.graph = 0 ∧ l.right = false ∧ l.cells = []) ∧
      ∀ es, tblWrite W cp valid nz e.2 = .ok es → packSize W es ≤ N) :
    ∃ f, saveFile W cod L junk bufs compress data (tblKind W cp valid nz) m = .ok f ∧ f.compressed = compress ∧
      f.data = data ∧ loadFile W cod L (tblKind W cp valid nz) f = .ok m :=
  C45_file hW hN hc junk bufs compress data _ m hne hs hn hN1 (fun e he => by
    obtain ⟨h1, h2, h3⟩ := hx e he
    obtain ⟨es, hw, hr⟩ := tbl_back hW nz h1
    exact ⟨es, hw, h3 es hw, fun q hq => by
      have := hr q hq
      rw [kept_id h2] at this
      exact this⟩)

/-! ### Comparison -/

theorem lineEq_refl (l : Line) : lineEq l l = true := by
  unfold lineEq
  simp only [decide_true, Bool.true_and]
  split
  · rfl
  · split <;> rfl

/-- A table is equal to itself exactly if its two grids are the same: `operator==` compares the x grid of one table with
    the y grid of the other. -/
theorem C46_equal_iff (t : Table) : tblEq t t = true ↔ t.gridx = t.gridy := by
  have hz : (t.lines.zip t.lines).all (fun p => lineEq p.1 p.2) = true := by
    rw [List.all_eq_true]
    intro p hp
    have : p.1 = p.2 := by
      generalize t.lines = ls at hp
      induction ls with
      | nil => cases hp
      | cons a ls ih =>
        simp only [List.zip_cons_cons, List.mem_cons] at hp
        rcases hp with rfl | hp
        · rfl
        · exact ih hp
    rw [this]
    exact lineEq_refl _
  unfold tblEq
  simp only [decide_true, Bool.true_and, Bool.and_true, lineEq_refl, hz, decide_eq_true_eq]

/-- A title has one cell, and only titles and lines of cells have cells. -/
def Shaped (l : Line) : Prop := (l.type = tTitle → l.cells.length = 1) ∧ (l.type ≠ tTitle → l.type ≠ tCell → l.cells = [])

theorem lineEq_sound {a b : Line} (ha : Shaped a) (hb : Shaped b) (h : lineEq a b = true) : a = b := by
  obtain ⟨ta, ga, ra, ca⟩ := a
  obtain ⟨tb, gb, rb, cb⟩ := b
  unfold lineEq at h
  simp only [Bool.and_eq_true, decide_eq_true_eq] at h
  obtain ⟨⟨⟨h1, h2⟩, h3⟩, h4⟩ := h
  subst h1 h2 h3
  obtain ⟨ha1, ha2⟩ := ha
  obtain ⟨hb1, hb2⟩ := hb
  simp only at ha1 ha2 hb1 hb2
  have : ca = cb := by
    by_cases ht : ta = tTitle
    · rw [if_pos ht] at h4
      simp only [decide_eq_true_eq] at h4
      have h5 := ha1 ht
      have h6 := hb1 ht
      match ca, cb, h5, h6 with
      | [x], [y], _, _ => simpa using h4
    · rw [if_neg ht] at h4
      by_cases hc : ta = tCell
      · rw [if_pos hc] at h4
        simpa using h4
      · rw [ha2 ht hc, hb2 ht hc]
  rw [this]

theorem linesEq_sound : ∀ {as bs : List Line}, (∀ l ∈ as, Shaped l) → (∀ l ∈ bs, Shaped l) → as.length = bs.length →
    (as.zip bs).all (fun p => lineEq p.1 p.2) = true → as = bs
  | [], [], _, _, _, _ => rfl
  | a :: as, b :: bs, ha, hb, hl, h => by
    simp only [List.zip_cons_cons, List.all_cons, Bool.and_eq_true] at h
    rw [lineEq_sound (ha a (by simp)) (hb b (by simp)) h.1,
      linesEq_sound (fun l hl => ha l (by simp [hl])) (fun l hl => hb l (by simp [hl])) (by simpa using hl) h.2]

/-- Tables that compare as equal are the same, except possibly their x grid. -/
theorem C46_equal_sound {a b : Table} (ha : ∀ l ∈ a.divider :: a.lines, Shaped l) (hb : ∀ l ∈ b.divider :: b.lines, Shaped l)
    (h : tblEq a b = true) : { a with gridx := b.gridx } = b := by
  obtain ⟨a1, a2, a3, a4, a5, a6, a7, a8, a9, a10, a11, a12, a13, a14, a15, a16⟩ := a
  obtain ⟨b1, b2, b3, b4, b5, b6, b7, b8, b9, b10, b11, b12, b13, b14, b15, b16⟩ := b
  unfold tblEq at h
  simp only [Bool.and_eq_true, decide_eq_true_eq] at h
  obtain ⟨⟨⟨⟨⟨⟨⟨⟨⟨⟨⟨⟨⟨⟨⟨⟨h1, h2⟩, h3⟩, h4⟩, h5⟩, h6⟩, h7⟩, h8⟩, h9⟩, h10⟩, h11⟩, h12⟩, h13⟩, h14⟩, h15⟩, h16⟩, h17⟩ := h
  simp only at ha hb
  have hd := lineEq_sound (ha _ (by simp)) (hb _ (by simp)) h4
  have hls := linesEq_sound (fun l hl => ha l (by simp [hl])) (fun l hl => hb l (by simp [hl])) h5 h6
  subst h1 h2 h3 hd hls h7 h8 h9 h10 h11 h12 h13 h15 h16 h17
  rfl

/-! ### Examples -/

def exTNoise : TNoise := ⟨fun i j => 7 * i + j, fun i j k x => Fin.ofNat 256 (i + 3 * j + 5 * k + 7 * x), fun i => 1000 - i,
  fun i => 3 + i, fun i => -5 * i, 77, -3⟩

/-- A table with a title, a separator, two lines of cells and a date line. -/
def exTbl (cell : Body) (sepRight : Bool) : Table where
  language := 50
  repeatCols := 0
  ncols := 2
  divider := ⟨tCell, 0, false, [⟨.lec (some (tx "1")), 16⟩, ⟨.lec none, 64⟩]⟩
  lines := [⟨tTitle, 0, false, [⟨.str (tx "GDP"), 8⟩]⟩, ⟨tSep, 0, sepRight, []⟩,
    ⟨tCell, 2, true, [⟨.str (tx "caf" ++ [195, 169]), 17⟩, ⟨cell, 64⟩]⟩,
    ⟨tCell, 0, false, [⟨.str [], 16⟩, ⟨.lec (some (tx "B+1")), 64⟩]⟩, ⟨tDate, 0, false, []⟩]
  zmin := -1
  zmax := 1
  ymin := 2
  ymax := 1065353216
  attr := 0
  box := 1
  shadow := 0
  gridx := 0
  gridy := 0
  axis := 3
  align := 2

/-- Formulas for the examples: they do not begin with an operator. -/
def validT (t : Text) : Bool := match t with
  | [] => false
  | b :: _ => 48 ≤ b.val

theorem exTbl_ok : TblOk cpEx validT (exTbl (.lec (some (tx "A/2"))) false) := by
  have idt : ∀ l : Text, encEx l = some l → decEx l = some l → l ≠ [] → (0 : Byte) ∉ l → validT l = true → l.length < 9 →
      BodyOk cpEx validT (.lec (some l)) := by
    intro l h1 h2 h3 h4 h5 h6
    have hc := cstr_id h4
    refine ⟨l, ⟨⟨?_, ?_, h4⟩, h3, h5, h5⟩, by omega⟩
    · unfold utf8ToOem; rw [if_neg (by simpa using h3), hc]; exact congrArg Res.ofOption h1
    · unfold oemToUtf8; rw [if_neg (by simpa using h3), hc]; exact congrArg Res.ofOption h2
  refine ⟨⟨by decide, by decide⟩, ⟨by decide, by decide⟩, ⟨by decide, by decide⟩, by decide, ⟨rfl, ⟨by decide, by decide⟩, rfl⟩,
    ?_, ?_, ?_, ⟨⟨by decide, by decide⟩, ⟨by decide, by decide⟩, ⟨by decide, by decide⟩, ⟨by decide, by decide⟩⟩, ?_⟩
  · intro c hc
    simp only [exTbl, List.mem_cons, List.not_mem_nil, or_false] at hc
    rcases hc with rfl | rfl
    · exact ⟨⟨⟨by decide, by decide⟩, idt _ (by decide) (by decide) (by decide) (by decide) (by decide) (by decide)⟩, _, rfl⟩
    · exact ⟨⟨⟨by decide, by decide⟩, trivial⟩, _, rfl⟩
  · intro c hc
    simp only [exTbl, List.head?_cons, Option.some.injEq] at hc
    subst hc
    simp
  · intro l hl
    simp only [exTbl, List.mem_cons, List.not_mem_nil, or_false] at hl
    rcases hl with rfl | rfl | rfl | rfl | rfl
    · refine ⟨⟨by decide, by decide⟩, Or.inr (Or.inl ⟨rfl, rfl, ?_⟩)⟩
      intro c hc
      simp only [List.mem_cons, List.not_mem_nil, or_false] at hc
      subst hc
      exact ⟨⟨by decide, by decide⟩, ⟨by decide, by decide⟩, tx "GDP", by decide, by decide, by decide⟩
    · exact ⟨⟨by decide, by decide⟩, Or.inr (Or.inr (Or.inl rfl))⟩
    · refine ⟨⟨by decide, by decide⟩, Or.inl ⟨rfl, rfl, ?_⟩⟩
      intro c hc
      simp only [List.mem_cons, List.not_mem_nil, or_false] at hc
      rcases hc with rfl | rfl
      · exact ⟨⟨by decide, by decide⟩, ⟨by decide, by decide⟩, tx "caf" ++ [130], by decide, by decide, by decide⟩
      · exact ⟨⟨by decide, by decide⟩, idt _ (by decide) (by decide) (by decide) (by decide) (by decide) (by decide)⟩
    · refine ⟨⟨by decide, by decide⟩, Or.inl ⟨rfl, rfl, ?_⟩⟩
      intro c hc
      simp only [List.mem_cons, List.not_mem_nil, or_false] at hc
      rcases hc with rfl | rfl
      · exact ⟨⟨by decide, by decide⟩, ⟨by decide, by decide⟩, [], by decide, by decide, by decide⟩
      · exact ⟨⟨by decide, by decide⟩, idt _ (by decide) (by decide) (by decide) (by decide) (by decide) (by decide)⟩
    · exact ⟨⟨by decide, by decide⟩, Or.inr (Or.inr (Or.inr (Or.inr (Or.inr rfl))))⟩
  · refine ⟨⟨by decide, by decide⟩, ⟨by decide, by decide⟩, ⟨by decide, by decide⟩, ⟨by decide, by decide⟩, ⟨by decide, by decide⟩,
      ⟨by decide, by decide⟩, ⟨by decide, by decide⟩⟩

theorem exTbl_plain : ∀ l ∈ (exTbl (.lec (some (tx "A/2"))) false).lines, Plain l → l.graph = 0 ∧ l.right = false ∧ l.cells = [] := by
  intro l hl hp
  simp only [exTbl, List.mem_cons, List.not_mem_nil, or_false] at hl
  rcases hl with rfl | rfl | rfl | rfl | rfl
  · exact absurd hp (by unfold Plain; decide)
  · exact ⟨rfl, rfl, rfl⟩
  · exact absurd hp (by unfold Plain; decide)
  · exact absurd hp (by unfold Plain; decide)
  · exact ⟨rfl, rfl, rfl⟩

theorem exTbl_size (es : List Elem) (h : tblWrite 4 cpEx validT exTNoise (exTbl (.lec (some (tx "A/2"))) false) = .ok es) :
    packSize 4 es ≤ 1000 := by
  have : (match tblWrite 4 cpEx validT exTNoise (exTbl (.lec (some (tx "A/2"))) false) with
    | .ok es => decide (packSize 4 es ≤ 1000)
    | _ => false) = true := by decide +kernel
  rw [h] at this
  simpa using this

example : ∃ f, saveFile 4 runCodec ⟨4, 3⟩ exJunk exBufs true [] (tblKind 4 cpEx validT exTNoise)
      [("T1".toList, exTbl (.lec (some (tx "A/2"))) false)] = .ok f ∧ f.compressed = true ∧ f.data = [] ∧
    loadFile 4 runCodec ⟨4, 3⟩ (tblKind 4 cpEx validT exTNoise) f = .ok [("T1".toList, exTbl (.lec (some (tx "A/2"))) false)] := by
  refine C46_tables_partial (N := 1000) (Or.inl rfl) (by decide) runCodec_lossless exJunk exBufs true [] exTNoise _ (by simp)
    ⟨by simp [SMap.keys], trivial⟩ ?_ (by decide) ?_
  · intro e he
    simp only [List.mem_cons, List.not_mem_nil, or_false] at he
    subst he
    exact ⟨by decide, by decide⟩
  · intro e he
    simp only [List.mem_cons, List.not_mem_nil, or_false] at he
    subst he
    exact ⟨exTbl_ok, exTbl_plain, exTbl_size⟩

example : ∃ es p, tblWrite 4 cpEx validT exTNoise (exTbl (.lec (some (tx "A/2"))) false) = .ok es ∧
    toPack 4 (exBufs []) es = .ok p ∧ tblRead 4 cpEx validT p = .ok (some (exTbl (.lec (some (tx "A/2"))) false).kept) :=
  C46_pack (Or.inl rfl) exTNoise _ exTbl_ok (fun es h => Nat.lt_of_le_of_lt (exTbl_size es h) (by decide))

example : tblEq (exTbl (.lec none) false) (exTbl (.lec none) false) = true := (C46_equal_iff _).2 rfl

example : ¬ tblEq { exTbl (.lec none) false with gridx := 1 } { exTbl (.lec none) false with gridx := 1 } = true :=
  fun h => absurd ((C46_equal_iff _).1 h) (by decide)

example : { { exTbl (.lec none) false with gridx := 1 } with gridx := 0 } = exTbl (.lec none) false := by
  have hs : ∀ g, ∀ l ∈ ({ exTbl (.lec none) false with gridx := g }).divider :: ({ exTbl (.lec none) false with gridx := g }).lines,
      Shaped l := by
    intro g l hl
    simp only [exTbl, List.mem_cons, List.not_mem_nil, or_false] at hl
    rcases hl with rfl | rfl | rfl | rfl | rfl | rfl <;>
      exact ⟨by simp [tTitle, tCell, tSep, tDate], by simp [tTitle, tCell, tSep, tDate]⟩
  exact C46_equal_sound (a := { exTbl (.lec none) false with gridx := 0 }) (hs 0) (hs 0) (by decide +kernel)

/-- Writing a table and reading it back. -/
def writeRead (W : Nat) (cp : CodePage) (valid : Text → Bool) (nz : TNoise) (bufs : Nat → Nat → Byte) (t : Table) :
    Res (Option Table) :=
  (tblWrite W cp valid nz t).bind fun es => (toPack W bufs es).bind fun p => tblRead W cp valid p

/-- The claim fails for a cell with a formula that does not compile: such a cell is announced in the headers but has no
    content, so that everything after it is read from the wrong position. Here the formula of the second cell of the next
    line is restored in its first cell, in place of a text, and the second cell is empty. -/
theorem C46_bad_formula_counterexample : ∃ cell, setLec validT (tx "+") = some cell ∧
    (exTbl (.lec (some cell)) false).lines[3]? =
      some ⟨tCell, 0, false, [⟨.str [], 16⟩, ⟨.lec (some (tx "B+1")), 64⟩]⟩ ∧
    ∃ t, writeRead 8 cpEx validT exTNoise (exBufs []) (exTbl (.lec (some cell)) false) = .ok (some t) ∧
      t.lines[3]? = some ⟨tCell, 0, false, [⟨.lec (some (tx "B+1")), 0⟩, ⟨.lec none, 0⟩]⟩ := by
  refine ⟨[], by decide, by decide +kernel, { exTbl (.lec none) false with
    lines := [⟨tTitle, 0, false, [⟨.str (tx "GDP"), 8⟩]⟩, ⟨tSep, 0, false, []⟩,
      ⟨tCell, 2, true, [⟨.str (tx "caf" ++ [195, 169]), 17⟩, ⟨.lec none, 64⟩]⟩,
      ⟨tCell, 0, false, [⟨.lec (some (tx "B+1")), 0⟩, ⟨.lec none, 0⟩]⟩, ⟨tDate, 0, false, []⟩] }, by decide +kernel, rfl⟩

/-- The claim fails for a separator on the right axis. -/
theorem C46_line_settings_counterexample :
    writeRead 8 cpEx validT exTNoise (exBufs []) (exTbl (.lec (some (tx "A/2"))) true) =
      .ok (some (exTbl (.lec (some (tx "A/2"))) false)) := by decide +kernel

/-- The claim fails for a text that begins with a double quote (typed as two double quotes). -/
theorem C46_quotes_counterexample : ∃ t, setText (34 :: 34 :: tx "x") = .ok t ∧
    writeRead 8 cpEx validT exTNoise (exBufs []) (exTbl (.str t) false) = .ok (some (exTbl (.str (tx "x")) false)) ∧
    t ≠ tx "x" := by
  refine ⟨34 :: tx "x", by decide, by decide +kernel, by decide⟩

/-- The text `"` alone: `set_text` reads the last character of an empty string. -/
theorem C46_lone_quote : setText [34] = .ub := by decide

end Tbl
end Iode
