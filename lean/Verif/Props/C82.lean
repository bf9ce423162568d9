import Verif.Lemmas.Dif
import Verif.Model.Export
import Verif.Lemmas.PrintfText

/-!
# C82  Variables imported from a DIF file get the names and values of its rows

See `properties.jsonl`.  Files are those of Spec/Dif.lean, rules those of Spec/Import.lean, patterns those of C23.
-/
namespace Iode
namespace Dif
open Yy Asc Printf Imp Dif.Written
open Lec (kept)
open Lec.Written (Gap)
open Imp.Written (RuleSource Renamed Invalid defaultRule)
open Asc.Written (ObjName lastDef)

/-- The text in front of the reader. -/
theorem at_start {ts : List Tok} {t z : Yy.Text} (h : Toks ts (t.filter kept) z) (h0 : ∀ c ∈ t, c.toNat ≠ 0) :
    ∃ col, At ts (expand col z) ⟨.err, false, expand 0 t⟩ ∧ Lec.Clean z := by
  obtain ⟨col, h1, h2⟩ := toks_expand h (clean_of h0) 0
  rw [← Lec.expand_kept] at h1
  exact ⟨col, ⟨rfl, h1⟩, h2⟩

/-- A file that is imported has one period, whatever it contains, and so have its variables. -/
theorem C82_one_period {file : Option Yy.Text} {t first last : Yy.Text} {db : VDb}
    (h : importVar file (some t) first last = .ok (some db)) :
    (∃ p : Period, db.smp = some ⟨p, p, 1⟩) ∧ ∀ k vs, SMap.find k db.vars = some vs → vs.length = 1 := by
  rw [importVar] at h
  obtain ⟨b, _, h⟩ := bind_ok h
  cases b with
  | false => cases h
  | true =>
    rw [if_pos rfl, interpretVar] at h
    obtain ⟨rules, _, h⟩ := bind_ok h
    simp only at h
    obtain ⟨⟨o, st⟩, hh, h⟩ := bind_ok h
    cases o with
    | none => cases h
    | some smp =>
      simp only at h
      obtain ⟨m, hm, h⟩ := bind_ok h
      obtain ⟨p, rfl⟩ := readHeader_sample hh
      cases h
      exact ⟨⟨p, rfl⟩, varLoop_length _ hm (by intro k vs h; cases h)⟩

/-- A reader in front of a file. -/
theorem interpret_file {rules : List Rule} {file : Option Yy.Text} (hf : RuleSource rules file) (hp : Plain rules) {per : Yy.Text} {p : Period}
    (hper : Period.parse per = .ok p) {rs : List (Yy.Text × SVal)} {ts : List Tok} (hfile : File per rs ts)
    (hw : ∀ e ∈ rs, e.1.length ≤ 79) {t z : Yy.Text} (h : Toks ts (t.filter kept) z) (hz : Gap z) (h0 : ∀ c ∈ t, c.toNat ≠ 0)
    {left : List (Yy.Text × List Dbl)} (hk : Renamed (Grep.Cut Grep.noCase) rules (varsOf rs) left) :
    interpretVar file (some t) = (Imp.puts .variables left []).bind fun db => .ok (some ⟨some ⟨p, p, 1⟩, db⟩) := by
  have hc := toks_clean h (clean_of h0)
  obtain ⟨col, ha, hcz⟩ := at_start h h0
  have hz' := gap_expand hz hcz col
  rw [interpretVar, readRules_source hf]
  simp only [Res.bind]
  cases hfile with
  | @mk hd rows n u m j h1 h2 h3 =>
    obtain ⟨s1, e1, ha⟩ := readHeader_head h1 ha
    obtain ⟨s2, e2, ha⟩ := corner_ok (hc u (by simp [textCell])) ha
    obtain ⟨s3, e3, ha⟩ := headPeriods_one (hc per (by simp [textCell])) hper ha
    obtain ⟨s4, e4, ha, _⟩ := skip_ok .bot h2 ha
    rw [e1, e2]
    simp only [Res.bind]
    rw [show ((2 : Nat) : Int) - 1 = 1 by omega, e3, e4]
    simp only [Res.bind, if_true]
    have hrow : ∀ {rs : List (Yy.Text × SVal)} {ts : List Tok}, Rows rs ts → ∀ e ∈ rs, Tok.str e.1 ∈ ts := by
      intro rs ts hr
      induction hr with
      | last => intro e he; rw [List.mem_singleton.1 he]; simp [textCell]
      | cut => intro e he; rw [List.mem_singleton.1 he]; simp [textCell]
      | more _ _ ih =>
        intro e he
        rcases List.mem_cons.1 he with rfl | he
        · simp [textCell]
        · have := ih e he
          simp [this]
    rw [show ((1 : Int).toNat) = 1 from rfl, varLoop_rows hp hz' h3 (fun e he => ⟨hc e.1 (by
      have := hrow h3 e he
      simp [this]), hw e he⟩) hk ha _ (by omega)]
    rfl

/-- What a DIF file with one period, a file of rules and two periods give: the sample of the file; each row that fits a rule is there
    as a variable under the name the rule makes of its name, with the value of the row; of several rows that get the same name the
    last one is kept. -/
theorem C82_import_partial {rules : List Rule} {file : Option Yy.Text} (hf : RuleSource rules file) (hp : Plain rules)
    {a b : Period} {s0 : Sample} (ha : PerOk a) (hb : PerOk b) (h01 : Sample.ofPeriods a b = .ok s0)
    {per : Yy.Text} {p : Period} (hper : Period.parse per = .ok p) {rs : List (Yy.Text × SVal)} {ts : List Tok} (hfile : File per rs ts)
    (hw : ∀ e ∈ rs, e.1.length ≤ 79) {t z : Yy.Text} (h : Toks ts (t.filter kept) z) (hz : Gap z) (h0 : ∀ c ∈ t, c.toNat ≠ 0)
    {left : List (Yy.Text × List Dbl)}
    (hk : Renamed (Grep.Cut Grep.noCase) rules (rs.map fun e => (e.1, [e.2.val na ieee])) left) (hn : ∀ e ∈ left, ObjName e.1) :
    ∃ db, importVar file (some t) a.toChars b.toChars = .ok (some ⟨some ⟨p, p, 1⟩, db⟩) ∧ SMap.Sorted db ∧
      ∀ k, SMap.find k db = lastDef true left k := by
  obtain ⟨db, e1, e2, e3⟩ := puts_ok (ty := .variables) (.inl rfl) (l := left) hn
  refine ⟨db, ?_, e2, e3⟩
  rw [importVar, given_ok ha hb h01]
  simp only [Res.bind, if_true]
  rw [interpret_file hf hp hper hfile hw h hz h0 hk, e1]
  rfl

/-- When a rule makes something of a name that is no name nothing is imported. -/
theorem C82_refused_partial {rules : List Rule} {file : Option Yy.Text} (hf : RuleSource rules file) (hp : Plain rules)
    {a b : Period} {s0 : Sample} (ha : PerOk a) (hb : PerOk b) (h01 : Sample.ofPeriods a b = .ok s0)
    {per : Yy.Text} {p : Period} (hper : Period.parse per = .ok p) {rs : List (Yy.Text × SVal)} {ts : List Tok} (hfile : File per rs ts)
    (hw : ∀ e ∈ rs, e.1.length ≤ 79) {t z : Yy.Text} (h : Toks ts (t.filter kept) z) (hz : Gap z) (h0 : ∀ c ∈ t, c.toNat ≠ 0)
    {left : List (Yy.Text × List Dbl)}
    (hk : Renamed (Grep.Cut Grep.noCase) rules (rs.map fun e => (e.1, [e.2.val na ieee])) left) (hn : ∃ e ∈ left, Invalid e.1) :
    importVar file (some t) a.toChars b.toChars = .err := by
  rw [importVar, given_ok ha hb h01]
  simp only [Res.bind, if_true]
  rw [interpret_file hf hp hper hfile hw h hz h0 hk, puts_err (.inl rfl) hn]
  rfl

/-- The beginning of a file: the columns are counted, then the headings are read. -/
theorem import_begins {rules : List Rule} {file : Option Yy.Text} (hf : RuleSource rules file)
    {a b : Period} {s0 : Sample} (ha : PerOk a) (hb : PerOk b) (h01 : Sample.ofPeriods a b = .ok s0)
    {n : Nat} {heads : List (Nat × Yy.Text)} {ts : List Tok} (hfile : Begins n heads ts) (hc : ∀ u, Tok.str u ∈ ts → ∀ c ∈ u, c.toNat ≠ 0)
    {t z : Yy.Text} (hat : At ts z ⟨.err, false, expand 0 t⟩) :
    ∃ st, At (heads.flatMap fun e => textCell e.1 e.2) z st ∧
      importVar file (some t) a.toChars b.toChars = (headPeriods ((n : Int) - 1) st).bind fun p =>
        match p.1 with
        | none => .ub
        | some smp => (varLoop rules smp.nb.toNat (p.2.text.length + 2) p.2 []).bind fun db =>
          .ok (some ⟨if smp.nb = 0 then none else some smp, db⟩) := by
  cases hfile with
  | @mk h k u h1 =>
    obtain ⟨s1, e1, hat⟩ := readHeader_head h1 hat
    obtain ⟨s2, e2, hat⟩ := corner_ok (hc u (by simp [textCell])) hat
    refine ⟨s2, hat, ?_⟩
    rw [importVar, given_ok ha hb h01]
    simp only [Res.bind, if_true]
    rw [interpretVar, readRules_source hf]
    simp only [Res.bind]
    rw [e1, e2]
    rfl

/-- A file with two periods or more is not refused: the import uses a null pointer, whatever the periods are. -/
theorem C82_periods_undefined {rules : List Rule} {file : Option Yy.Text} (hf : RuleSource rules file)
    {a b : Period} {s0 : Sample} (ha : PerOk a) (hb : PerOk b) (h01 : Sample.ofPeriods a b = .ok s0)
    {n i j : Nat} (hn : 3 ≤ n) {u v : Yy.Text} {p q : Period} (hp : Period.parse u = .ok p) (hq : Period.parse v = .ok q)
    {heads : List (Nat × Yy.Text)} {ts : List Tok} (hfile : Begins n ((i, u) :: (j, v) :: heads) ts)
    {t z : Yy.Text} (h : Toks ts (t.filter kept) z) (h0 : ∀ c ∈ t, c.toNat ≠ 0) :
    importVar file (some t) a.toChars b.toChars = .ub := by
  have hc := toks_clean h (clean_of h0)
  obtain ⟨col, hat, _⟩ := at_start h h0
  obtain ⟨st, h1, h2⟩ := import_begins hf ha hb h01 hfile hc hat
  have hu : ∀ c ∈ u, c.toNat ≠ 0 := hc u (by cases hfile; simp [textCell])
  have hv : ∀ c ∈ v, c.toNat ≠ 0 := hc v (by cases hfile; simp [textCell])
  rw [List.flatMap_cons, List.flatMap_cons] at h1
  obtain ⟨st', h3⟩ := headPeriods_two (ny := (n : Int) - 1) (by omega) hu hv hp hq h1
  rw [h2, h3]
  rfl

/-- A heading that is no period ends the import with an exception. -/
theorem C82_heading_refused {rules : List Rule} {file : Option Yy.Text} (hf : RuleSource rules file)
    {a b : Period} {s0 : Sample} (ha : PerOk a) (hb : PerOk b) (h01 : Sample.ofPeriods a b = .ok s0)
    {n i : Nat} (hn : 2 ≤ n) {u : Yy.Text} (hp : Period.parse u = .err)
    {heads : List (Nat × Yy.Text)} {ts : List Tok} (hfile : Begins n ((i, u) :: heads) ts)
    {t z : Yy.Text} (h : Toks ts (t.filter kept) z) (h0 : ∀ c ∈ t, c.toNat ≠ 0) :
    importVar file (some t) a.toChars b.toChars = .err := by
  have hc := toks_clean h (clean_of h0)
  obtain ⟨col, hat, _⟩ := at_start h h0
  obtain ⟨st, h1, h2⟩ := import_begins hf ha hb h01 hfile hc hat
  have hu : ∀ c ∈ u, c.toNat ≠ 0 := hc u (by cases hfile; simp [textCell])
  rw [List.flatMap_cons] at h1
  rw [h2, headPeriods_err (ny := (n : Int) - 1) (by omega) hu hp h1]
  rfl

/-- A file without a row behind the headings is not refused: the import uses a null pointer. -/
theorem C82_rows_undefined {rules : List Rule} {file : Option Yy.Text} (hf : RuleSource rules file)
    {a b : Period} {s0 : Sample} (ha : PerOk a) (hb : PerOk b) (h01 : Sample.ofPeriods a b = .ok s0)
    {i : Nat} {u : Yy.Text} {p : Period} (hp : Period.parse u = .ok p) {ts js : List Tok} (hfile : Begins 2 [(i, u)] ts)
    (hj : Free "BOT" js) {t z : Yy.Text} (h : Toks (ts ++ (js ++ [kw "EOD"])) (t.filter kept) z) (h0 : ∀ c ∈ t, c.toNat ≠ 0) :
    importVar file (some t) a.toChars b.toChars = .ub := by
  have hc := toks_clean h (clean_of h0)
  obtain ⟨col, hat, _⟩ := at_start h h0
  cases hfile with
  | @mk hd k v h1 =>
    simp only [List.append_assoc, List.flatMap_cons, List.flatMap_nil, List.nil_append] at hat hc
    obtain ⟨s1, e1, hat⟩ := readHeader_head h1 hat
    obtain ⟨s2, e2, hat⟩ := corner_ok (hc v (by simp [textCell])) hat
    obtain ⟨s3, e3, hat⟩ := headPeriods_one (hc u (by simp [textCell])) hp hat
    obtain ⟨s4, e4, _⟩ := skip_eod .bot hj hat
    rw [importVar, given_ok ha hb h01]
    simp only [Res.bind, if_true]
    rw [interpretVar, readRules_source hf]
    simp only [Res.bind]
    rw [e1, e2]
    simp only [Res.bind]
    rw [show ((2 : Nat) : Int) - 1 = 1 by omega, e3, e4]
    rfl

/-- A text in the place of a value is written through a null pointer. -/
theorem C82_text_undefined {rules : List Rule} {file : Option Yy.Text} (hf : RuleSource rules file)
    {a b : Period} {s0 : Sample} (ha : PerOk a) (hb : PerOk b) (h01 : Sample.ofPeriods a b = .ok s0)
    {i m n : Nat} {u w v : Yy.Text} {p : Period} (hp : Period.parse u = .ok p) {ts js : List Tok} (hfile : Begins 2 [(i, u)] ts)
    (hj : Free "BOT" js) {t z : Yy.Text} (h : Toks (ts ++ (js ++ kw "BOT" :: (textCell m w ++ textCell n v))) (t.filter kept) z)
    (h0 : ∀ c ∈ t, c.toNat ≠ 0) : importVar file (some t) a.toChars b.toChars = .ub := by
  have hc := toks_clean h (clean_of h0)
  obtain ⟨col, hat, _⟩ := at_start h h0
  cases hfile with
  | @mk hd k v' h1 =>
    simp only [List.append_assoc, List.flatMap_cons, List.flatMap_nil, List.nil_append] at hat hc
    obtain ⟨s1, e1, hat⟩ := readHeader_head h1 hat
    obtain ⟨s2, e2, hat⟩ := corner_ok (hc v' (by simp [textCell])) hat
    obtain ⟨s3, e3, hat⟩ := headPeriods_one (hc u (by simp [textCell])) hp hat
    obtain ⟨s4, e4, hat, _⟩ := skip_ok .bot hj hat
    obtain ⟨s5, e5, hat, _⟩ := strCell_ok (hc w (by simp [textCell])) hat
    obtain ⟨s6, e6, hat, _⟩ := long_int hat
    obtain ⟨s7, e7, _, _⟩ := skip_comma hat
    rw [importVar, given_ok ha hb h01]
    simp only [Res.bind, if_true]
    rw [interpretVar, readRules_source hf]
    simp only [Res.bind]
    rw [e1, e2]
    simp only [Res.bind]
    rw [show ((2 : Nat) : Int) - 1 = 1 by omega, e3, e4]
    simp only [Res.bind, if_true]
    rw [varLoop, readVariable, e5]
    simp only [Res.bind]
    rw [show ((1 : Int).toNat) = 1 from rfl, vals, numCell, e6]
    simp only [Res.bind]
    rw [if_neg (by simp), if_pos (by simp), e7]
    simp only [if_true]

/-! ## Exported files -/

/-- A piece of a text, in front of further elements. -/
def Piece (ts : List Tok) (x : Yy.Text) : Prop := ∀ t ts' s z, Toks (t :: ts') s z → Toks (ts ++ t :: ts') (x ++ s) z

theorem Piece.append {a b : List Tok} {x y : Yy.Text} (h1 : Piece a x) (h2 : Piece b y) (hb : b ≠ []) : Piece (a ++ b) (x ++ y) := by
  intro t ts' s z h
  have := h2 t ts' s z h
  cases b with
  | nil => exact absurd rfl hb
  | cons c b =>
    rw [List.append_assoc, List.append_assoc]
    exact h1 c _ _ z this

theorem Piece.all : ∀ {l : List (List Tok × Yy.Text)}, (∀ e ∈ l, e.1 ≠ [] ∧ Piece e.1 e.2) → Piece (l.flatMap (·.1)) (l.flatMap (·.2))
  | [], _ => fun _ _ _ _ h => h
  | e :: l, h => by
    have ih := Piece.all (l := l) fun e he => h e (by simp [he])
    cases l with
    | nil => simpa using (h e (by simp)).2
    | cons e' l =>
      refine (h e (by simp)).2.append ih ?_
      have := (h e' (by simp)).1
      simp [this]

theorem toks_white {t : Tok} {ts : List Tok} {s z : Yy.Text} (h : Toks (t :: ts) s z) : Toks (t :: ts) ('\n' :: s) z := by
  have w : ∀ {g : Yy.Text}, Gap g → Gap ('\n' :: g) := fun h => .white (by decide) h
  cases h with
  | word hg a b c d e => exact .word (w hg) a b c d e
  | int hg a b c d e => exact .int (w hg) a b c d e
  | num hg a b c d => exact .num (w hg) a b c d
  | sign hg a b => exact .sign (w hg) a b
  | str hg a b => exact .str (w hg) a b

theorem piece_word {w : Yy.Text} (h1 : w ≠ []) (h2 : ∀ c, w.head? = some c → ¬ Lec.Written.Digit c) (h3 : ∀ c ∈ w, Lec.Written.NameCh c) :
    Piece [.word w] (w ++ ['\n']) := by
  intro t ts' s z h
  rw [List.append_assoc]
  exact .word (g := []) .nil h1 h2 h3 (by intro c hc; cases hc; decide) (toks_white h)

theorem piece_int {n : Nat} (hn : n < 10 ^ 9) : Piece [.int n] (natToChars n ++ ['\n']) := by
  intro t ts' s z h
  rw [List.append_assoc]
  have := Toks.int (g := []) .nil (natToChars_digits n) (natToChars_ne_nil n) (natToChars_length (by omega) hn)
    (by intro c hc; cases hc; decide) (toks_white h)
  rwa [dec_natToChars] at this

theorem piece_start {n : Nat} (hn : n < 10) : Piece [.int n, .sign ','] (natToChars n ++ [',']) := by
  intro t ts' s z h
  rw [List.append_assoc]
  have := Toks.int (g := []) .nil (natToChars_digits n) (natToChars_ne_nil n) (natToChars_length (k := 9) (by omega) (by omega))
    (s := ',' :: s) (by intro c hc; cases hc; decide) (.sign (g := []) .nil (.inr rfl) h)
  rwa [dec_natToChars] at this

theorem piece_minus : Piece [.sign '-'] ['-'] := fun _ _ _ _ h => .sign (g := []) .nil (.inl rfl) h

theorem piece_str {t b : Yy.Text} (h : Asc.Written.Lit t b) : Piece [.str t] ('"' :: (b ++ ['"', '\n'])) := by
  intro u ts' s z hs
  have := Toks.str (g := []) (s := '\n' :: s) .nil h (toks_white hs)
  simpa using this

theorem lit_plain : ∀ {t : Yy.Text}, (∀ c ∈ t, c ≠ '"' ∧ c ≠ '\\' ∧ c ≠ '^' ∧ c.toNat ≠ 9) → Asc.Written.Lit t t
  | [], _ => .nil
  | c :: t, h => by
    obtain ⟨h1, h2, h3, h4⟩ := h c (by simp)
    exact .plain h1 h2 h3 h4 (lit_plain fun c hc => h c (by simp [hc]))

/-- The elements in front of the headings of an exported file. -/
def difHead (a b : Nat) : List Tok :=
  kw "TABLE" :: ([.int 0, .sign ',', .int 1, .str []] ++ kw "VECTORS" :: (countCell a (.str []) ++ ([] ++ kw "TUPLES" ::
    (countCell b (.str []) ++ ([kw "DATA", .int 0, .sign ',', .int 0, .str [], .sign '-', .int 1, .sign ',', .int 0] ++ [kw "BOT"])))))

theorem difHead_head (a b : Nat) : Head a (difHead a b) := by
  refine .mk ?_ ?_ ?_
  · intro t ht
    simp only [List.mem_cons, List.not_mem_nil, or_false] at ht
    rcases ht with rfl | rfl | rfl | rfl <;> simp [kw]
  · intro t ht; cases ht
  · intro t ht
    simp only [List.mem_cons, List.not_mem_nil, or_false] at ht
    rcases ht with rfl | rfl | rfl | rfl | rfl | rfl | rfl | rfl | rfl <;> simp [kw]

/-- The header, with the characters of its texts. -/
theorem difHeader_chars (dim nb : Nat) (ps : List Yy.Text) : Exp.difHeader dim nb ps =
    ['T', 'A', 'B', 'L', 'E', '\n', '0', ',', '1', '\n', '"', '"', '\n', 'V', 'E', 'C', 'T', 'O', 'R', 'S', '\n', '0', ','] ++ (natToChars (dim + 2) ++ (['\n', '"', '"', '\n', 'T', 'U', 'P', 'L', 'E', 'S', '\n', '0', ','] ++ (natToChars (nb + 1) ++ (['\n', '"', '"', '\n', 'D', 'A', 'T', 'A', '\n', '0', ',', '0', '\n', '"', '"', '\n'] ++ (['-', '1', ',', '0', '\n', 'B', 'O', 'T', '\n'] ++ (['1', ',', '0', '\n', '"', 'C', 'O', 'D', 'E', '"', '\n', '1', ',', '0', '\n', '"', 'C', 'O', 'M', 'M', 'E', 'N', 'T', '"', '\n'] ++
      ps.flatMap fun p => ['1', ',', '0', '\n', '"'] ++ (p ++ ['"', '\n']))))))) :=
  congrArg₂ (· ++ ·) (show "TABLE\n0,1\n\"\"\nVECTORS\n0,".toList = ['T', 'A', 'B', 'L', 'E', '\n', '0', ',', '1', '\n', '"', '"', '\n', 'V', 'E', 'C', 'T', 'O', 'R', 'S', '\n', '0', ','] by decide +kernel) (congrArg₂ (· ++ ·) rfl (congrArg₂ (· ++ ·)
    (show "\n\"\"\nTUPLES\n0,".toList = ['\n', '"', '"', '\n', 'T', 'U', 'P', 'L', 'E', 'S', '\n', '0', ','] by decide +kernel) (congrArg₂ (· ++ ·) rfl (congrArg₂ (· ++ ·) (show "\n\"\"\nDATA\n0,0\n\"\"\n".toList = ['\n', '"', '"', '\n', 'D', 'A', 'T', 'A', '\n', '0', ',', '0', '\n', '"', '"', '\n'] by decide +kernel)
    (congrArg₂ (· ++ ·) (show "-1,0\nBOT\n".toList = ['-', '1', ',', '0', '\n', 'B', 'O', 'T', '\n'] by decide +kernel) (congrArg₂ (· ++ ·) (show "1,0\n\"CODE\"\n1,0\n\"COMMENT\"\n".toList = ['1', ',', '0', '\n', '"', 'C', 'O', 'D', 'E', '"', '\n', '1', ',', '0', '\n', '"', 'C', 'O', 'M', 'M', 'E', 'N', 'T', '"', '\n'] by decide +kernel)
    (congrArg (fun f : Yy.Text → Yy.Text => ps.flatMap f) (funext fun p => congrArg₂ (· ++ ·) (show "1,0\n\"".toList = ['1', ',', '0', '\n', '"'] by decide +kernel)
      (congrArg (p ++ ·) (show "\"\n".toList = ['"', '\n'] by decide +kernel))))))))))

/-- An exported file begins like this. -/
theorem difHeader_toks {dim nb : Nat} (hd : dim + 2 < 10 ^ 9) (hb : nb + 1 < 10 ^ 9) (ps : List Yy.Text) (s : Yy.Text) :
    ∃ r, Toks (difHead (dim + 2) (nb + 1) ++ (textCell 0 "CODE".toList ++ textCell 0 "COMMENT".toList))
      (Exp.difHeader dim nb ps ++ s) r := by
  have key : ∀ (w : Yy.Text), w ∈ [['T', 'A', 'B', 'L', 'E'], ['V', 'E', 'C', 'T', 'O', 'R', 'S'], ['T', 'U', 'P', 'L', 'E', 'S'], ['D', 'A', 'T', 'A'], ['B', 'O', 'T']] → Piece [.word w] (w ++ ['\n']) := by
    intro w hw
    have hw' : w ≠ [] ∧ (∀ c ∈ w.head?, ¬ Lec.Written.Digit c) ∧ ∀ c ∈ w, Lec.Written.NameCh c := by
      revert w
      decide +kernel
    exact piece_word hw'.1 (fun c hc => hw'.2.1 c hc) hw'.2.2
  have e0 : Piece [.str []] ['"', '"', '\n'] := piece_str .nil
  have l0 : Piece [.int 0, .sign ','] ['0', ','] := by
    have := piece_start (n := 0) (by omega)
    rwa [show natToChars 0 = ['0'] by decide +kernel] at this
  have l1 : Piece [.int 1, .sign ','] ['1', ','] := by
    have := piece_start (n := 1) (by omega)
    rwa [show natToChars 1 = ['1'] by decide +kernel] at this
  have n0 : Piece [.int 0] ['0', '\n'] := by
    have := piece_int (n := 0) (by omega)
    rwa [show natToChars 0 = ['0'] by decide +kernel] at this
  have n1 : Piece [.int 1] ['1', '\n'] := by
    have := piece_int (n := 1) (by omega)
    rwa [show natToChars 1 = ['1'] by decide +kernel] at this
  have hcode : Piece [.str ['C', 'O', 'D', 'E']] ('"' :: (['C', 'O', 'D', 'E'] ++ ['"', '\n'])) := piece_str (lit_plain (by decide +kernel))
  have hall := Piece.all (l := [([.word ['T', 'A', 'B', 'L', 'E']], ['T', 'A', 'B', 'L', 'E'] ++ ['\n']), ([.int 0, .sign ','], ['0', ',']), ([.int 1], ['1', '\n']),
    ([.str []], ['"', '"', '\n']), ([.word ['V', 'E', 'C', 'T', 'O', 'R', 'S']], ['V', 'E', 'C', 'T', 'O', 'R', 'S'] ++ ['\n']), ([.int 0, .sign ','], ['0', ',']),
    ([.int (dim + 2)], natToChars (dim + 2) ++ ['\n']), ([.str []], ['"', '"', '\n']), ([.word ['T', 'U', 'P', 'L', 'E', 'S']], ['T', 'U', 'P', 'L', 'E', 'S'] ++ ['\n']),
    ([.int 0, .sign ','], ['0', ',']), ([.int (nb + 1)], natToChars (nb + 1) ++ ['\n']), ([.str []], ['"', '"', '\n']),
    ([.word ['D', 'A', 'T', 'A']], ['D', 'A', 'T', 'A'] ++ ['\n']), ([.int 0, .sign ','], ['0', ',']), ([.int 0], ['0', '\n']), ([.str []], ['"', '"', '\n']),
    ([.sign '-'], ['-']), ([.int 1, .sign ','], ['1', ',']), ([.int 0], ['0', '\n']), ([.word ['B', 'O', 'T']], ['B', 'O', 'T'] ++ ['\n']),
    ([.int 1, .sign ','], ['1', ',']), ([.int 0], ['0', '\n']), ([.str ['C', 'O', 'D', 'E']], '"' :: (['C', 'O', 'D', 'E'] ++ ['"', '\n'])),
    ([.int 1, .sign ','], ['1', ',']), ([.int 0], ['0', '\n'])]) (by
      have k1 := key ['T', 'A', 'B', 'L', 'E'] (by simp)
      have k2 := key ['V', 'E', 'C', 'T', 'O', 'R', 'S'] (by simp)
      have k3 := key ['T', 'U', 'P', 'L', 'E', 'S'] (by simp)
      have k4 := key ['D', 'A', 'T', 'A'] (by simp)
      have k5 := key ['B', 'O', 'T'] (by simp)
      have i1 := piece_int hd
      have i2 := piece_int hb
      have i3 := piece_minus
      simp only [List.forall_mem_cons]
      exact ⟨⟨by simp, k1⟩, ⟨by simp, l0⟩, ⟨by simp, n1⟩, ⟨by simp, e0⟩, ⟨by simp, k2⟩, ⟨by simp, l0⟩, ⟨by simp, i1⟩, ⟨by simp, e0⟩, ⟨by simp, k3⟩, ⟨by simp, l0⟩, ⟨by simp, i2⟩, ⟨by simp, e0⟩,
        ⟨by simp, k4⟩, ⟨by simp, l0⟩, ⟨by simp, n0⟩, ⟨by simp, e0⟩, ⟨by simp, i3⟩, ⟨by simp, l1⟩, ⟨by simp, n0⟩, ⟨by simp, k5⟩, ⟨by simp, l1⟩, ⟨by simp, n0⟩, ⟨by simp, hcode⟩, ⟨by simp, l1⟩, ⟨by simp, n0⟩, by simp⟩)
  let r := '\n' :: ((ps.flatMap fun p => ['1', ',', '0', '\n', '"'] ++ (p ++ ['"', '\n'])) ++ s)
  refine ⟨r, ?_⟩
  have := hall (.str ['C', 'O', 'M', 'M', 'E', 'N', 'T']) [] ('"' :: (['C', 'O', 'M', 'M', 'E', 'N', 'T'] ++ '"' :: r)) r
    (.str (g := []) .nil (lit_plain (by decide +kernel)) .nil)
  rw [difHeader_chars]
  simp only [List.flatMap_cons, List.flatMap_nil, List.append_assoc, List.cons_append, List.nil_append, List.append_nil, r] at this
  simp only [difHead, kw, countCell, textCell, List.append_assoc, List.cons_append, List.nil_append, List.append_nil, r]
  exact this

theorem difHeader_kept (dim nb : Nat) (ps : List Yy.Text) :
    (Exp.difHeader dim nb ps).filter kept = Exp.difHeader dim nb (ps.map fun p => p.filter kept) := by
  have hd : ∀ n : Nat, (natToChars n).filter kept = natToChars n := by
    intro n
    rw [List.filter_eq_self]
    intro c hc
    have := natToChars_digits n c hc
    unfold Lec.Written.Digit at this
    simp only [kept, decide_eq_true_eq]
    omega
  have hp : ∀ ps : List Yy.Text, (ps.flatMap fun p => ['1', ',', '0', '\n', '"'] ++ (p ++ ['"', '\n'])).filter kept =
      (ps.map fun p => p.filter kept).flatMap fun p => ['1', ',', '0', '\n', '"'] ++ (p ++ ['"', '\n']) := by
    intro ps
    induction ps with
    | nil => rfl
    | cons p ps ih =>
      rw [List.flatMap_cons, List.filter_append, ih, List.map_cons, List.flatMap_cons, List.filter_append, List.filter_append]
      rfl
  rw [difHeader_chars, difHeader_chars]
  simp only [List.filter_append, hd, hp]
  exact congrArg₂ (· ++ ·) (by decide +kernel) (congrArg₂ (· ++ ·) rfl (congrArg₂ (· ++ ·) (by decide +kernel) (congrArg₂ (· ++ ·) rfl
    (congrArg₂ (· ++ ·) (by decide +kernel) (congrArg₂ (· ++ ·) (by decide +kernel) (congrArg₂ (· ++ ·) (by decide +kernel) rfl))))))

/-- The files that the DIF export writes cannot be imported: the heading of the comments is no period. -/
theorem C82_export_counterexample {rules : List Rule} {file : Option Yy.Text} (hf : RuleSource rules file)
    {a b : Period} {s0 : Sample} (ha : PerOk a) (hb : PerOk b) (h01 : Sample.ofPeriods a b = .ok s0)
    {cf : Exp.Conf} {erules : List Rule} {smp : Sample} {vars : SMap (List Dbl)} {cmts : SMap Yy.Text} {t : Yy.Text}
    (hs : smp.nb < 10 ^ 8) (hv : vars.length < 10 ^ 8) (he : Exp.dif cf erules smp vars cmts = .ok t) (h0 : ∀ c ∈ t, c.toNat ≠ 0) :
    importVar file (some t) a.toChars b.toChars = .err := by
  rw [Exp.dif] at he
  obtain ⟨ps, _, he⟩ := bind_ok he
  obtain ⟨es, _, he⟩ := bind_ok he
  obtain ⟨x, _, he⟩ := bind_ok he
  injection he with he
  have hk : t.filter kept = Exp.difHeader smp.nb.toNat vars.length (ps.map fun p => p.filter kept) ++ (x ++ "-1,0\nEOD\n".toList).filter kept := by
    rw [← he, List.filter_append, difHeader_kept]
  obtain ⟨r, hr⟩ := difHeader_toks (dim := smp.nb.toNat) (nb := vars.length) (by omega) (by omega) (ps.map fun p => p.filter kept)
    ((x ++ "-1,0\nEOD\n".toList).filter kept)
  rw [← hk] at hr
  refine C82_heading_refused hf ha hb h01 (n := smp.nb.toNat + 2) (i := 0) (u := "COMMENT".toList) (heads := []) (by omega) (by decide +kernel) ?_ hr h0
  have e : (textCell 0 "CODE".toList ++ textCell 0 "COMMENT".toList) = textCell 0 "CODE".toList ++ ([(0, "COMMENT".toList)].flatMap fun e => textCell e.1 e.2) := by
    rw [List.flatMap_cons, List.flatMap_nil, List.append_nil]
  rw [e]
  exact .mk (difHead_head _ _)

/-! ## Examples -/

/-- A file with one period and two rows. -/
def sampleFile : Yy.Text :=
  "TABLE\n0,1\n\"\"\nVECTORS\n0,2\n\"\"\nTUPLES\n0,3\n\"\"\nDATA\n0,0\n\"\"\n-1,0\nBOT\n1,0\n\"CODE\"\n1,0\n\"2000Y1\"\n-1,0\nBOT\n1,0\n\"A\"\n0,1.5\nV\n-1,0\nBOT\n1,0\n\"b\"\n0,-2\nV\n-1,0\nEOD\n".toList

example : importVar none (some sampleFile) "2000Y1".toList "2000Y1".toList =
    .ok (some ⟨some ⟨⟨2000, 1, 'Y'⟩, ⟨2000, 1, 'Y'⟩, 1⟩, [(['A'], [.num (3 / 2)]), (['B'], [.num (-2)])]⟩) := by decide +kernel

/-- Two periods. -/
example : importVar none (some "TABLE VECTORS 0,3 V TUPLES 0,2 V BOT 1,0 \"\" 1,0 \"2000Y1\" 1,0 \"2001Y1\" BOT 1,0 \"A\" 0,1 V 0,2 V EOD".toList)
    "2000Y1".toList "2001Y1".toList = .ub := by decide +kernel

/-- No row. -/
example : importVar none (some "TABLE VECTORS 0,2 V TUPLES 0,2 V BOT 1,0 \"\" 1,0 \"2000Y1\" -1,0 EOD".toList)
    "2000Y1".toList "2001Y1".toList = .ub := by decide +kernel

/-- A text in the place of a value. -/
example : importVar none (some "TABLE VECTORS 0,2 V TUPLES 0,2 V BOT 1,0 \"\" 1,0 \"2000Y1\" BOT 1,0 \"A\" 1,0 \"x\" EOD".toList)
    "2000Y1".toList "2001Y1".toList = .ub := by decide +kernel

/-- The elements of a small file. -/
def smallToks : List Tok :=
  (kw "TABLE" :: ([] ++ kw "VECTORS" :: (countCell 2 (.str []) ++ ([] ++ kw "TUPLES" :: (countCell 2 (.str []) ++ ([] ++ [kw "BOT"])))))) ++
    (textCell 0 [] ++ (textCell 0 "2000Y1".toList ++ ([] ++ kw "BOT" :: (textCell 0 ['A'] ++ (valueCell .na (kw "V") ++ ([] ++ [kw "EOD"]))))))

theorem small_file : File "2000Y1".toList [(['A'], SVal.na)] smallToks := by
  have f : ∀ s, Free s [] := fun s t ht => by cases ht
  exact .mk (.mk (f _) (f _) (f _)) (f _) (.last (f _))

def smallText : Yy.Text :=
  "TABLE\nVECTORS\n0,2\n\"\"\nTUPLES\n0,2\n\"\"\nBOT\n1,0\n\"\"\n1,0\n\"2000Y1\"\nBOT\n1,0\n\"A\"\n0,na\nV\nEOD".toList

theorem small_toks : Toks smallToks (smallText.filter kept) [] := by
  have key : ∀ (w : Yy.Text), w ∈ [['T', 'A', 'B', 'L', 'E'], ['V', 'E', 'C', 'T', 'O', 'R', 'S'], ['T', 'U', 'P', 'L', 'E', 'S'], ['B', 'O', 'T'], ['n', 'a'], ['V']] →
      Piece [.word w] (w ++ ['\n']) := by
    intro w hw
    have hw' : w ≠ [] ∧ (∀ c ∈ w.head?, ¬ Lec.Written.Digit c) ∧ ∀ c ∈ w, Lec.Written.NameCh c := by
      revert w
      decide +kernel
    exact piece_word hw'.1 (fun c hc => hw'.2.1 c hc) hw'.2.2
  have e0 : Piece [.str []] ['"', '"', '\n'] := piece_str .nil
  have l0 : Piece [.int 0, .sign ','] ['0', ','] := by
    have := piece_start (n := 0) (by omega)
    rwa [show natToChars 0 = ['0'] by decide +kernel] at this
  have l1 : Piece [.int 1, .sign ','] ['1', ','] := by
    have := piece_start (n := 1) (by omega)
    rwa [show natToChars 1 = ['1'] by decide +kernel] at this
  have n0 : Piece [.int 0] ['0', '\n'] := by
    have := piece_int (n := 0) (by omega)
    rwa [show natToChars 0 = ['0'] by decide +kernel] at this
  have n2 : Piece [.int 2] ['2', '\n'] := by
    have := piece_int (n := 2) (by omega)
    rwa [show natToChars 2 = ['2'] by decide +kernel] at this
  have hper : Piece [.str ['2', '0', '0', '0', 'Y', '1']] ('"' :: (['2', '0', '0', '0', 'Y', '1'] ++ ['"', '\n'])) := piece_str (lit_plain (by decide +kernel))
  have ha : Piece [.str ['A']] ('"' :: (['A'] ++ ['"', '\n'])) := piece_str (lit_plain (by decide +kernel))
  have hall := Piece.all (l := [([.word ['T', 'A', 'B', 'L', 'E']], ['T', 'A', 'B', 'L', 'E'] ++ ['\n']), ([.word ['V', 'E', 'C', 'T', 'O', 'R', 'S']], ['V', 'E', 'C', 'T', 'O', 'R', 'S'] ++ ['\n']), ([.int 0, .sign ','], ['0', ',']), ([.int 2], ['2', '\n']), ([.str []], ['"', '"', '\n']), ([.word ['T', 'U', 'P', 'L', 'E', 'S']], ['T', 'U', 'P', 'L', 'E', 'S'] ++ ['\n']), ([.int 0, .sign ','], ['0', ',']), ([.int 2], ['2', '\n']), ([.str []], ['"', '"', '\n']), ([.word ['B', 'O', 'T']], ['B', 'O', 'T'] ++ ['\n']), ([.int 1, .sign ','], ['1', ',']), ([.int 0], ['0', '\n']), ([.str []], ['"', '"', '\n']), ([.int 1, .sign ','], ['1', ',']), ([.int 0], ['0', '\n']), ([.str ['2', '0', '0', '0', 'Y', '1']], '"' :: (['2', '0', '0', '0', 'Y', '1'] ++ ['"', '\n'])), ([.word ['B', 'O', 'T']], ['B', 'O', 'T'] ++ ['\n']), ([.int 1, .sign ','], ['1', ',']), ([.int 0], ['0', '\n']), ([.str ['A']], '"' :: (['A'] ++ ['"', '\n'])), ([.int 0, .sign ','], ['0', ',']), ([.word ['n', 'a']], ['n', 'a'] ++ ['\n']), ([.word ['V']], ['V'] ++ ['\n'])]) (by
      simp only [List.forall_mem_cons]
      exact ⟨⟨by simp, key _ (by decide)⟩, ⟨by simp, key _ (by decide)⟩, ⟨by simp, l0⟩, ⟨by simp, n2⟩, ⟨by simp, e0⟩, ⟨by simp, key _ (by decide)⟩, ⟨by simp, l0⟩, ⟨by simp, n2⟩, ⟨by simp, e0⟩, ⟨by simp, key _ (by decide)⟩, ⟨by simp, l1⟩, ⟨by simp, n0⟩, ⟨by simp, e0⟩, ⟨by simp, l1⟩, ⟨by simp, n0⟩, ⟨by simp, hper⟩, ⟨by simp, key _ (by decide)⟩, ⟨by simp, l1⟩, ⟨by simp, n0⟩, ⟨by simp, ha⟩, ⟨by simp, l0⟩, ⟨by simp, key _ (by decide)⟩, ⟨by simp, key _ (by decide)⟩, by simp⟩)
  have := hall (.word ['E', 'O', 'D']) [] ['E', 'O', 'D'] []
    (.word (g := []) (s := []) .nil (by decide) (by intro c h; cases h; decide) (by decide) (by intro c h; cases h) .nil)
  rw [show smallText.filter kept = ['T', 'A', 'B', 'L', 'E', '\n', 'V', 'E', 'C', 'T', 'O', 'R', 'S', '\n', '0', ',', '2', '\n', '"', '"', '\n', 'T', 'U', 'P', 'L', 'E', 'S', '\n', '0', ',', '2', '\n', '"', '"', '\n', 'B', 'O', 'T', '\n', '1', ',', '0', '\n', '"', '"', '\n', '1', ',', '0', '\n', '"', '2', '0', '0', '0', 'Y', '1', '"', '\n', 'B', 'O', 'T', '\n', '1', ',', '0', '\n', '"', 'A', '"', '\n', '0', ',', 'n', 'a', '\n', 'V', '\n', 'E', 'O', 'D'] by decide +kernel]
  simp only [List.flatMap_cons, List.flatMap_nil, List.append_assoc, List.cons_append, List.nil_append, List.append_nil] at this
  exact this

example : ∃ db, importVar none (some smallText) (Period.toChars ⟨2000, 1, 'Y'⟩) (Period.toChars ⟨2000, 1, 'Y'⟩) = .ok (some ⟨some ⟨⟨2000, 1, 'Y'⟩, ⟨2000, 1, 'Y'⟩, 1⟩, db⟩) ∧
    SMap.Sorted db ∧ ∀ k, SMap.find k db = lastDef true [(['A'], [na])] k := by
  have hper : PerOk ⟨2000, 1, 'Y'⟩ := ⟨⟨1, rfl, by decide, by decide⟩, by unfold IsPeriodicity; decide, by decide, by decide⟩
  have := C82_import_partial .none plain_default hper hper (s0 := ⟨⟨2000, 1, 'Y'⟩, ⟨2000, 1, 'Y'⟩, 1⟩) (by decide +kernel)
    (per := "2000Y1".toList) (p := ⟨2000, 1, 'Y'⟩) (by decide +kernel) small_file (by decide) small_toks .nil (by decide +kernel)
    (.keep (chosen_default ['A']) .nil) (by
      intro e he
      rw [List.mem_singleton.1 he]
      exact ⟨by decide, by intro c h; cases h; decide, by decide, by decide⟩)
  exact this

end Dif
end Iode
