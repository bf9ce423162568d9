import Verif.Lemmas.Export
import Verif.Props.C39
import Verif.Props.C72
import Mathlib.Data.List.GetD

/-!
# C73  Exported files hold the variables, comments and periods they should

See `properties.jsonl`.  How other programs read the files is in Spec/Export.lean.
-/
namespace Iode
namespace Exp
open Yy Asc Printf Imp Lec.Written Asc.Written Decimals
open Written
open Imp.Written (RuleSource Renamed Chosen defaultRule)

/-- Variables that can be exported: the sample is there, all variables have its length, none has the one value between numbers and
    missing values.  `es` are those that fit the rules: new name, name and values. -/
structure Ready (rules : List Rule) (db : VDb) (smp : Sample) (es : List (Yy.Text × Yy.Text × List Dbl)) : Prop where
  sample : db.smp = some smp
  fair : smp.Fair
  len : ∀ e ∈ db.vars, e.2.length = smp.nb.toNat
  lim : ∀ e ∈ db.vars, Dbl.num limit ∉ e.2
  chosen : Renamed (Grep.Cut Grep.noCase) rules (db.vars.map fun e => (e.1, e)) es

/-- The comment of a variable: blanks around it and new lines are dropped, nothing without a comment. -/
def Note (cmts : SMap Yy.Text) (w u : Yy.Text) : Prop :=
  (∃ t, SMap.find (toKey .comments w) cmts = some t ∧ u = tidy (t.filter (· ≠ '\n'))) ∨ (SMap.find (toKey .comments w) cmts = none ∧ u = [])

/-- The rows that are written. -/
def rowOf (cf : Conf) (cmts : SMap Yy.Text) (e : Yy.Text × Yy.Text × List Dbl) : Row :=
  ⟨tidy e.1, tidy ((comment cmts e.2.1).filter (· ≠ '\n')), e.2.2.map (value cf)⟩

theorem rowOf_spec {rules : List Rule} {db : VDb} {smp : Sample} {es : List (Yy.Text × Yy.Text × List Dbl)} (h : Ready rules db smp es)
    (cf : Conf) (cmts : SMap Yy.Text) : List.Forall₂ (RowOf (Note cmts) limit cf.na) es (es.map (rowOf cf cmts)) := by
  rw [List.forall₂_map_right_iff, List.forall₂_same]
  intro e he
  have hv := h.lim e.2 (renamed_mem h.chosen e he)
  refine ⟨rfl, ?_, ?_⟩
  · simp only [rowOf, comment]
    cases hf : SMap.find (toKey .comments e.2.1) cmts with
    | none => exact .inr ⟨hf, rfl⟩
    | some t => exact .inl ⟨t, hf, rfl⟩
  · simp only [rowOf]
    rw [List.forall₂_map_right_iff, List.forall₂_same]
    intro v hv'
    exact value_shown (fun e => hv (e ▸ hv'))

/-! ## CSV -/

theorem value_free {c : Char} {missing : Yy.Text} {x : Char} (hx : ∀ y, Usual y → y ≠ x) (hm : x ∉ missing) (v : Dbl) :
    x ∉ RepFn.stripText (value ⟨[c], missing⟩ v) := by
  intro h
  rcases value_chars x (mem_strip h) with h | h
  · exact hx x h rfl
  · exact hm h

theorem value_tidy {cf : Conf} (hm : ∀ c ∈ cf.na, 32 < c.toNat) (v : Dbl) : tidy (value cf v) = value cf v := by
  refine tidy_self fun c hc => ?_
  rcases value_chars c hc with h | h
  · exact usual_visible h
  · exact hm c h

theorem choice_visible {usual g t : Yy.Text} (h : Choice usual g t) (hu : ∀ c ∈ usual, 32 < c.toNat) : ∀ c ∈ t, 32 < c.toNat := by
  rcases h with ⟨_, rfl⟩ | ⟨_, _, h, rfl⟩
  · exact hu
  · exact h

theorem nl_usual : ∀ y, Usual y → y ≠ '\n' := by
  intro y hy e
  have := usual_visible hy
  rw [e] at this
  revert this
  decide

/-- One line of CSV. -/
theorem csv_line {c : Char} (hc : Mark c) {missing : Yy.Text} (hm : c ∉ missing) (hv : ∀ x ∈ missing, 32 < x.toNat)
    {cmts : SMap Yy.Text} {e : Yy.Text × Yy.Text × List Dbl} {dim : Nat} (hl : e.2.2.length = dim) (hn : c ∉ e.1 ∧ '\n' ∉ e.1)
    (hk : c ∉ comment cmts e.2.1) :
    ∃ l, csvLine ⟨[c], missing⟩ cmts dim (e.2.1, e.1, e.2.2) = .ok (l ++ ['\n']) ∧ '\n' ∉ l ∧
      cells c l = (rowOf ⟨[c], missing⟩ cmts e).name :: (rowOf ⟨[c], missing⟩ cmts e).note :: (rowOf ⟨[c], missing⟩ cmts e).vals := by
  have hcs : c ≠ ' ' := by rintro rfl; exact absurd hc.1 (by decide)
  have hcn : c ≠ '\n' := by rintro rfl; exact absurd hc.1 (by decide)
  have hmn : '\n' ∉ missing := fun h => absurd (hv _ h) (by decide)
  refine ⟨RepFn.stripText e.1 ++ c :: (' ' :: (RepFn.stripText ((comment cmts e.2.1).filter (· ≠ '\n')) ++ c :: (' ' ::
    e.2.2.flatMap fun v => RepFn.stripText (value ⟨[c], missing⟩ v) ++ [c]))), ?_, ?_, ?_⟩
  · unfold csvLine
    simp only
    rw [← hl, vec_ok]
    simp [Res.bind, withSep, prePost, List.append_assoc]
  · intro h
    rcases List.mem_append.1 h with h | h
    · exact hn.2 (mem_strip h)
    · rcases List.mem_cons.1 h with h | h
      · exact hcn h.symm
      rcases List.mem_cons.1 h with h | h
      · exact absurd h (by decide)
      rcases List.mem_append.1 h with h | h
      · have := mem_strip h
        simp at this
      rcases List.mem_cons.1 h with h | h
      · exact hcn h.symm
      rcases List.mem_cons.1 h with h | h
      · exact absurd h (by decide)
      refine not_mem_flat (fun v _ => ?_) h
      intro h
      rcases List.mem_append.1 h with h | h
      · exact value_free nl_usual hmn v h
      · exact hcn (List.mem_singleton.1 h).symm
  · rw [cells_cons (fun h => hn.1 (mem_strip h)), cells_blank hcs, cells_cons (fun h => hk (List.mem_filter.1 (mem_strip h)).1), cells_blank hcs,
      cells_flat (fun v _ => value_free (fun y hy => mark_usual hc hy) hm v), tidy_strip, tidy_strip]
    simp only [rowOf]
    congr 2
    refine List.map_congr_left fun v _ => ?_
    rw [tidy_strip, value_tidy hv]

theorem given_none {first last : Yy.Text} (h : first = [] ∨ last = []) : given first last = .ok none := by
  have : RepFn.stripText first = [] ∨ RepFn.stripText last = [] := by
    rcases h with rfl | rfl
    · exact .inl rfl
    · exact .inr rfl
  rw [given, if_pos this]

/-- A CSV file: a line of headings, and for each variable that fits a rule its new name, its comment and its values. -/
theorem C73_csv_partial {rules : List Rule} {file : Option Yy.Text} (hf : RuleSource rules file) (hp : Plain rules) {db : VDb} {smp : Sample}
    {es : List (Yy.Text × Yy.Text × List Dbl)} (h : Ready rules db smp es) {c : Char} (hc : Mark c) {na missing : Yy.Text}
    (hna : Choice "#N/A".toList na missing) (hm : c ∉ missing) {first last : Yy.Text} (hper : first = [] ∨ last = [])
    {cfile : Option (Option (SMap Yy.Text))} (hn : ∀ e ∈ es, c ∉ e.1 ∧ '\n' ∉ e.1)
    (hk : ∀ e ∈ es, ∀ u, SMap.find (toKey .comments e.2.1) ((cfile.bind id).getD []) = some u → c ∉ u) :
    ∃ t ps rows, ruleExport true .csv file (some (some db)) cfile first last na [c] = .ok (true, some t) ∧ smp.listPeriods = .ok ps ∧
      List.Forall₂ (RowOf (Note ((cfile.bind id).getD [])) limit missing) es rows ∧
      table c t = csvTable (ps.map Period.toChars) rows := by
  obtain ⟨ps, p1, p2, p3, p4⟩ := periods_fair h.fair
  generalize hcm : (cfile.bind id).getD [] = cmts at hk
  replace hk : ∀ e ∈ es, c ∉ comment cmts e.2.1 := by
    intro e he
    rw [comment]
    cases hf : SMap.find (toKey .comments e.2.1) cmts with
    | none => simp
    | some u => exact hk e he u hf
  have hv := choice_visible hna (by decide)
  have hcn : c ≠ '\n' := by rintro rfl; exact absurd hc.1 (by decide)
  have hline : ∀ e ∈ es, ∃ l, csvLine ⟨[c], missing⟩ cmts smp.nb.toNat (e.2.1, e.1, e.2.2) = .ok (l ++ ['\n']) ∧ '\n' ∉ l ∧
      cells c l = (rowOf ⟨[c], missing⟩ cmts e).name :: (rowOf ⟨[c], missing⟩ cmts e).note :: (rowOf ⟨[c], missing⟩ cmts e).vals :=
    fun e he => csv_line hc hm hv (h.len _ (renamed_mem h.chosen e he)) (hn e he) (hk e he)
  have hall : ∃ t, texts (csvLine ⟨[c], missing⟩ cmts smp.nb.toNat) (es.map fun e => (e.2.1, e.1, e.2.2)) = .ok t ∧
      table c t = (es.map (rowOf ⟨[c], missing⟩ cmts)).map fun r => r.name :: r.note :: r.vals := by
    clear h hn hk
    induction es with
    | nil => exact ⟨[], rfl, by rw [table, lines_nil]; rfl⟩
    | cons e es ih =>
      obtain ⟨l, l1, l2, l3⟩ := hline e (by simp)
      obtain ⟨t, t1, t2⟩ := ih fun e he => hline e (by simp [he])
      refine ⟨l ++ '\n' :: t, ?_, ?_⟩
      · rw [List.map_cons, texts, l1, t1]
        simp [Res.bind]
      · rw [table, lines_cons l2, List.map_cons, l3, List.map_cons, List.map_cons, ← t2]
        rfl
  obtain ⟨t, t1, t2⟩ := hall
  refine ⟨csvHeader ⟨[c], missing⟩ (ps.map Period.toChars) ++ t, ps, es.map (rowOf ⟨[c], missing⟩ cmts), ?_, p1, rowOf_spec h ⟨[c], missing⟩ cmts, ?_⟩
  · rw [ruleExport, given_none hper]
    simp only [Res.bind]
    rw [hcm, conf_eq hc.1 hna, write, readRules_source hf]
    simp only [Res.bind]
    rw [if_neg (by simp), h.sample]
    simp only
    rw [csv, p3, chosen_renamed hp h.chosen]
    simp only [Res.bind]
    rw [t1]
    rfl
  · have hu : ∀ {l : Yy.Text}, (∀ x ∈ l, Usual x) → c ∉ l := fun hl hx => mark_usual hc (hl _ hx) rfl
    have hu' : ∀ {l : Yy.Text}, (∀ x ∈ l, Usual x) → '\n' ∉ l := fun hl hx => nl_usual _ (hl _ hx) rfl
    have c1 : ∀ x ∈ ['c', 'o', 'd', 'e'], Usual x := by intro x hx; left; revert x; decide
    have c2 : ∀ x ∈ ['c', 'o', 'm', 'm', 'e', 'n', 't'], Usual x := by intro x hx; left; revert x; decide
    have hp' : ∀ x ∈ ps.map Period.toChars, ∀ y ∈ x, Usual y := by
      intro x hx
      obtain ⟨p, hp, rfl⟩ := List.mem_map.1 hx
      exact p4 p hp
    have e1 : csvHeader ⟨[c], missing⟩ (ps.map Period.toChars) ++ t = (['c', 'o', 'd', 'e'] ++ c :: (['c', 'o', 'm', 'm', 'e', 'n', 't'] ++ c ::
        (ps.map Period.toChars).flatMap fun x => x ++ [c])) ++ '\n' :: t := by
      simp [csvHeader, List.append_assoc]
    rw [e1, table, lines_cons]
    · rw [List.map_cons, cells_cons (hu c1), cells_cons (hu c2), cells_flat fun x hx => hu (hp' x hx), csvTable, ← t2]
      congr 3
      conv_rhs => rw [← List.map_id (ps.map Period.toChars)]
      refine List.map_congr_left fun x hx => ?_
      exact tidy_self fun y hy => usual_visible (hp' x hx y hy)
    · intro hx
      rcases List.mem_append.1 hx with hx | hx
      · exact hu' c1 hx
      rcases List.mem_cons.1 hx with hx | hx
      · exact hcn hx.symm
      rcases List.mem_append.1 hx with hx | hx
      · exact hu' c2 hx
      rcases List.mem_cons.1 hx with hx | hx
      · exact hcn hx.symm
      refine not_mem_flat (fun x hx' => ?_) hx
      intro h
      rcases List.mem_append.1 h with h | h
      · exact hu' (hp' x hx') h
      · exact hcn (List.mem_singleton.1 h).symm

/-! ## Rotated CSV -/

theorem getElem_values {e : Yy.Text × Yy.Text × List Dbl} {j : Nat} (cf : Conf) (cmts : SMap Yy.Text) {v : Dbl} (hv : e.2.2[j]? = some v) :
    (rowOf cf cmts e).vals.getD j [] = value cf v := by
  rw [List.getD_eq_getElem?_getD, rowOf, List.getElem?_map, hv]
  rfl

/-- The line of one period. -/
theorem rot_line {c : Char} (hc : Mark c) {missing : Yy.Text} (hm : c ∉ missing) (hv : ∀ x ∈ missing, 32 < x.toNat)
    (cmts : SMap Yy.Text) {es : List (Yy.Text × Yy.Text × List Dbl)} {j : Nat} (hj : ∀ e ∈ es, j < e.2.2.length) {p : Yy.Text}
    (hp : ∀ x ∈ p, Usual x) :
    ∃ l, rotLine ⟨[c], missing⟩ (es.map fun e => (e.2.1, e.1, e.2.2)) (j, p) = .ok (l ++ ['\n']) ∧ '\n' ∉ l ∧
      cells c l = p :: (es.map (rowOf ⟨[c], missing⟩ cmts)).map fun r => r.vals.getD j [] := by
  have hcs : c ≠ ' ' := by rintro rfl; exact absurd hc.1 (by decide)
  have hcn : c ≠ '\n' := by rintro rfl; exact absurd hc.1 (by decide)
  have hmn : '\n' ∉ missing := fun h => absurd (hv _ h) (by decide)
  have hcell : ∀ e ∈ es.map (fun e => (e.2.1, e.1, e.2.2)), rotCell ⟨[c], missing⟩ j e =
      .ok (RepFn.stripText (value ⟨[c], missing⟩ (e.2.2.getD j .nan)) ++ [c] ++ [' ']) := by
    intro e he
    obtain ⟨x, hx, rfl⟩ := List.mem_map.1 he
    have := hj x hx
    unfold rotCell
    simp only
    rw [List.getElem?_eq_getElem this, List.getD_eq_getElem _ _ this]
    simp [withSep, prePost]
  have hv1 : ∀ e ∈ es.map (fun e => (e.2.1, e.1, e.2.2)), c ∉ RepFn.stripText (value ⟨[c], missing⟩ (e.2.2.getD j .nan)) :=
    fun e _ => value_free (fun y hy => mark_usual hc hy) hm _
  refine ⟨p ++ c :: (' ' :: (es.map fun e => (e.2.1, e.1, e.2.2)).flatMap fun e =>
    RepFn.stripText (value ⟨[c], missing⟩ (e.2.2.getD j .nan)) ++ [c] ++ [' ']), ?_, ?_, ?_⟩
  · unfold rotLine
    rw [texts_ok hcell]
    simp [Res.bind]
  · intro h
    rcases List.mem_append.1 h with h | h
    · exact nl_usual _ (hp _ h) rfl
    rcases List.mem_cons.1 h with h | h
    · exact hcn h.symm
    rcases List.mem_cons.1 h with h | h
    · exact absurd h (by decide)
    refine not_mem_flat (fun e _ => ?_) h
    intro h
    rcases List.mem_append.1 h with h | h
    · rcases List.mem_append.1 h with h | h
      · exact value_free nl_usual hmn _ h
      · exact hcn (List.mem_singleton.1 h).symm
    · exact absurd (List.mem_singleton.1 h) (by decide)
  · rw [cells_cons (fun h => mark_usual hc (hp _ h) rfl), cells_blank hcs, cells_flat_blank hcs hv1, tidy_self fun x hx => usual_visible (hp x hx),
      List.map_map, List.map_map]
    congr 1
    refine List.map_congr_left fun e he => ?_
    have := hj e he
    simp only [Function.comp]
    rw [tidy_strip, value_tidy hv, getElem_values _ cmts (List.getElem?_eq_getElem this), List.getD_eq_getElem _ _ this]

/-- A rotated CSV file: the new names of the variables, and for each period its values. -/
theorem C73_rotated_partial {rules : List Rule} {file : Option Yy.Text} (hf : RuleSource rules file) (hp : Plain rules) {db : VDb} {smp : Sample}
    {es : List (Yy.Text × Yy.Text × List Dbl)} (h : Ready rules db smp es) {c : Char} (hc : Mark c) {na missing : Yy.Text}
    (hna : Choice "#N/A".toList na missing) (hm : c ∉ missing) {first last : Yy.Text} (hper : first = [] ∨ last = [])
    {cfile : Option (Option (SMap Yy.Text))} (hn : ∀ e ∈ es, c ∉ e.1 ∧ '\n' ∉ e.1) :
    ∃ t ps rows, ruleExport true .rotated file (some (some db)) cfile first last na [c] = .ok (true, some t) ∧ smp.listPeriods = .ok ps ∧
      List.Forall₂ (RowOf (Note ((cfile.bind id).getD [])) limit missing) es rows ∧
      table c t = rotTable (ps.map Period.toChars) rows := by
  obtain ⟨ps, p1, p2, p3, p4⟩ := periods_fair h.fair
  generalize hcm : (cfile.bind id).getD [] = cmts
  have hv := choice_visible hna (by decide)
  have hcs : c ≠ ' ' := by rintro rfl; exact absurd hc.1 (by decide)
  have hcn : c ≠ '\n' := by rintro rfl; exact absurd hc.1 (by decide)
  have hlen : ∀ e ∈ es, e.2.2.length = ps.length := fun e he => by rw [h.len _ (renamed_mem h.chosen e he), p2]
  have hall : ∀ js : List (Nat × Yy.Text), (∀ x ∈ js, x.1 < ps.length ∧ ∀ y ∈ x.2, Usual y) →
      ∃ t, texts (rotLine ⟨[c], missing⟩ (es.map fun e => (e.2.1, e.1, e.2.2))) js = .ok t ∧
      table c t = js.map fun x => x.2 :: (es.map (rowOf ⟨[c], missing⟩ cmts)).map fun r => r.vals.getD x.1 [] := by
    intro js
    induction js with
    | nil => intro _; exact ⟨[], rfl, by rw [table, lines_nil]; rfl⟩
    | cons x js ih =>
      intro hx
      obtain ⟨l, l1, l2, l3⟩ := rot_line hc hm hv cmts (es := es) (j := x.1) (p := x.2)
        (fun e he => by rw [hlen e he]; exact (hx x (by simp)).1) (hx x (by simp)).2
      obtain ⟨t, t1, t2⟩ := ih fun y hy => hx y (by simp [hy])
      refine ⟨l ++ '\n' :: t, ?_, ?_⟩
      · rw [texts, l1, t1]
        simp [Res.bind]
      · rw [table, lines_cons l2, List.map_cons, l3, List.map_cons, ← t2]
        rfl
  obtain ⟨t, t1, t2⟩ := hall ((List.range (ps.map Period.toChars).length).zip (ps.map Period.toChars)) (by
    intro x hx
    have h1 := List.of_mem_zip hx
    refine ⟨by simpa using h1.1, ?_⟩
    obtain ⟨p, hp, e⟩ := List.mem_map.1 h1.2
    rw [← e]
    exact p4 p hp)
  have hnames : ∀ e ∈ es, c ∉ RepFn.stripText e.1 := fun e he h' => (hn e he).1 (mem_strip h')
  refine ⟨(c :: (' ' :: es.flatMap fun e => RepFn.stripText e.1 ++ [c] ++ [' '])) ++ '\n' :: t, ps, es.map (rowOf ⟨[c], missing⟩ cmts), ?_, p1,
    rowOf_spec h ⟨[c], missing⟩ cmts, ?_⟩
  · rw [ruleExport, given_none hper]
    simp only [Res.bind]
    rw [hcm, conf_eq hc.1 hna, write, readRules_source hf]
    simp only [Res.bind]
    rw [if_neg (by simp), h.sample]
    simp only
    rw [rotated, p3, chosen_renamed hp h.chosen]
    simp only [Res.bind]
    rw [t1]
    simp [List.flatMap_map, withSep, prePost]
  · rw [table, lines_cons]
    · rw [List.map_cons, show c :: (' ' :: es.flatMap fun e => RepFn.stripText e.1 ++ [c] ++ [' ']) =
        [] ++ c :: (' ' :: es.flatMap fun e => RepFn.stripText e.1 ++ [c] ++ [' ']) from rfl, cells_cons (by simp), cells_blank hcs,
        cells_flat_blank hcs hnames, rotTable]
      congr 1
      · congr 1
        rw [List.map_map]
        exact List.map_congr_left fun e _ => tidy_strip _
      · refine t2.trans ?_
        refine List.ext_getElem (by simp) fun i h1 h2 => ?_
        have hi : i < ps.length := by simpa using h2
        simp [List.getD_eq_getElem?_getD, List.getElem?_eq_getElem, hi]
    · intro hx
      rcases List.mem_cons.1 hx with hx | hx
      · exact hcn hx.symm
      rcases List.mem_cons.1 hx with hx | hx
      · exact absurd hx (by decide)
      refine not_mem_flat (fun e he => ?_) hx
      intro h'
      rcases List.mem_append.1 h' with h' | h'
      · rcases List.mem_append.1 h' with h' | h'
        · exact (hn e he).2 (mem_strip h')
        · exact hcn (List.mem_singleton.1 h').symm
      · exact absurd (List.mem_singleton.1 h') (by decide)

/-! ## DIF -/

theorem difRows_text {a : Yy.Text} {r : List Yy.Text} {p : List Cell × List (List Cell)} (h : difRows r = some p) :
    difRows ("1,0".toList :: ('"' :: (a ++ ['"'])) :: r) = some (Cell.text (tidy a) :: p.1, p.2) := by
  rw [difRows, if_neg (by decide), if_pos rfl, h, inner]
  simp

theorem difRows_num {a : Yy.Text} {r : List Yy.Text} {p : List Cell × List (List Cell)} (h : difRows r = some p) :
    difRows (('0' :: ',' :: a) :: ['V'] :: r) = some (Cell.num (tidy a) :: p.1, p.2) := by
  rw [difRows, if_neg (by intro e; injection e with e; revert e; decide), if_neg (by intro e; injection e with e; revert e; decide),
    if_pos ⟨rfl, rfl⟩, h]
  rfl

theorem difRows_bot {r : List Yy.Text} {p : List Cell × List (List Cell)} (h : difRows r = some p) :
    difRows ("-1,0".toList :: "BOT".toList :: r) = some ([], p.1 :: p.2) := by
  rw [difRows, if_pos rfl, if_neg (by decide), if_pos rfl, h]
  rfl

/-- A text of DIF and what is read of it. -/
def Reads (t : Yy.Text) (p : List Cell × List (List Cell)) : Prop := difRows (lines t) = some p

theorem reads_text {a t : Yy.Text} (ha : '\n' ∉ a) {p : List Cell × List (List Cell)} (h : Reads t p) :
    Reads (['1', ',', '0', '\n', '"'] ++ (a ++ (['"', '\n'] ++ t))) (Cell.text (tidy a) :: p.1, p.2) := by
  have e : ['1', ',', '0', '\n', '"'] ++ (a ++ (['"', '\n'] ++ t)) = ['1', ',', '0'] ++ '\n' :: (('"' :: (a ++ ['"'])) ++ '\n' :: t) := by simp
  rw [Reads, e, lines_cons (by decide), lines_cons]
  · exact difRows_text h
  · simp [ha]

theorem reads_num {a t : Yy.Text} (ha : '\n' ∉ a) {p : List Cell × List (List Cell)} (h : Reads t p) :
    Reads (['0', ','] ++ (a ++ (['\n', 'V', '\n'] ++ t))) (Cell.num (tidy a) :: p.1, p.2) := by
  have e : ['0', ','] ++ (a ++ (['\n', 'V', '\n'] ++ t)) = ('0' :: ',' :: a) ++ '\n' :: (['V'] ++ '\n' :: t) := by simp
  rw [Reads, e, lines_cons (by simp [ha]), lines_cons (by decide)]
  exact difRows_num h

theorem reads_bot {t : Yy.Text} {p : List Cell × List (List Cell)} (h : Reads t p) : Reads (bot ++ t) ([], p.1 :: p.2) := by
  have e : bot ++ t = "-1,0".toList ++ '\n' :: ("BOT".toList ++ '\n' :: t) := rfl
  rw [Reads, e, lines_cons (by decide), lines_cons (by decide)]
  exact difRows_bot h

theorem reads_texts {xs : List Yy.Text} (hx : ∀ a ∈ xs, '\n' ∉ a) {t : Yy.Text} {p : List Cell × List (List Cell)} (h : Reads t p) :
    Reads ((xs.flatMap fun a => "1,0\n\"".toList ++ (a ++ "\"\n".toList)) ++ t) (xs.map (fun a => Cell.text (tidy a)) ++ p.1, p.2) := by
  induction xs with
  | nil => exact h
  | cons a xs ih =>
    have := reads_text (hx a (by simp)) (ih fun a ha => hx a (by simp [ha]))
    rw [List.flatMap_cons, List.append_assoc, List.append_assoc, List.append_assoc]
    exact this

theorem reads_nums {cf : Conf} {vs : List Dbl} (hx : ∀ v ∈ vs, '\n' ∉ value cf v) {t : Yy.Text} {p : List Cell × List (List Cell)} (h : Reads t p) :
    Reads ((vs.flatMap fun v => difValue (value cf v)) ++ t) (vs.map (fun v => Cell.num (tidy (value cf v))) ++ p.1, p.2) := by
  induction vs with
  | nil => exact h
  | cons v vs ih =>
    have := reads_num (a := RepFn.stripText (value cf v)) (fun h' => hx v (by simp) (mem_strip h')) (ih fun v hv => hx v (by simp [hv]))
    rw [tidy_strip] at this
    rw [List.flatMap_cons, difValue, prePost, List.append_assoc, List.append_assoc, List.append_assoc]
    exact this

theorem reads_end : Reads "-1,0\nEOD\n".toList ([], []) := by
  have e : "-1,0\nEOD\n".toList = "-1,0".toList ++ '\n' :: ("EOD".toList ++ '\n' :: []) := rfl
  rw [Reads, e, lines_cons (by decide), lines_cons (by decide), lines_nil]
  decide

theorem dif_head {x y r : Yy.Text} (hx : '\n' ∉ x) (hy : '\n' ∉ y) {rows : List (List Cell)} (h : Reads r ([], rows)) :
    readDif ("TABLE\n0,1\n\"\"\nVECTORS\n0,".toList ++ (x ++ ("\n\"\"\nTUPLES\n0,".toList ++ (y ++ ("\n\"\"\nDATA\n0,0\n\"\"\n".toList ++ r))))) =
      some (x, y, rows) := by
  have e : "TABLE\n0,1\n\"\"\nVECTORS\n0,".toList ++ (x ++ ("\n\"\"\nTUPLES\n0,".toList ++ (y ++ ("\n\"\"\nDATA\n0,0\n\"\"\n".toList ++ r)))) =
      "TABLE".toList ++ '\n' :: ("0,1".toList ++ '\n' :: ("\"\"".toList ++ '\n' :: ("VECTORS".toList ++ '\n' :: (('0' :: ',' :: x) ++ '\n' ::
      ("\"\"".toList ++ '\n' :: ("TUPLES".toList ++ '\n' :: (('0' :: ',' :: y) ++ '\n' :: ("\"\"".toList ++ '\n' :: ("DATA".toList ++ '\n' ::
      ("0,0".toList ++ '\n' :: ("\"\"".toList ++ '\n' :: r))))))))))) := rfl
  rw [e, readDif, lines_cons (by decide), lines_cons (by decide), lines_cons (by decide), lines_cons (by decide), lines_cons (by simp [hx]),
    lines_cons (by decide), lines_cons (by decide), lines_cons (by simp [hy]), lines_cons (by decide), lines_cons (by decide), lines_cons (by decide),
    lines_cons (by decide)]
  simp only
  rw [if_pos ⟨by decide, rfl, rfl⟩]
  have h' : difRows (lines r) = some ([], rows) := h
  rw [h']
  rfl

theorem nl_nat (n : Nat) : '\n' ∉ natToChars n := fun h => nl_usual _ (usual_digits (natToChars_digits n) _ h) rfl

theorem title_lit (r : Yy.Text) : "1,0\n\"CODE\"\n1,0\n\"COMMENT\"\n".toList ++ r =
    ['1', ',', '0', '\n', '"'] ++ ("CODE".toList ++ (['"', '\n'] ++ (['1', ',', '0', '\n', '"'] ++ ("COMMENT".toList ++ (['"', '\n'] ++ r))))) := by
  have e : "1,0\n\"CODE\"\n1,0\n\"COMMENT\"\n".toList = ['1', ',', '0', '\n', '"'] ++ ("CODE".toList ++ (['"', '\n'] ++ (['1', ',', '0', '\n', '"'] ++
    ("COMMENT".toList ++ ['"', '\n'])))) := by decide +kernel
  rw [e]
  simp only [List.append_assoc]

theorem assoc8 (a b c d e f g h r : Yy.Text) : (a ++ (b ++ (c ++ (d ++ (e ++ (f ++ (g ++ h))))))) ++ r =
    a ++ (b ++ (c ++ (d ++ (e ++ (f ++ (g ++ (h ++ r))))))) := by simp only [List.append_assoc]

theorem dif_title (dim nb : Nat) (ps : List Yy.Text) (r : Yy.Text) : difHeader dim nb ps ++ r =
    "TABLE\n0,1\n\"\"\nVECTORS\n0,".toList ++ (natToChars (dim + 2) ++ ("\n\"\"\nTUPLES\n0,".toList ++ (natToChars (nb + 1) ++
    ("\n\"\"\nDATA\n0,0\n\"\"\n".toList ++ (bot ++ (['1', ',', '0', '\n', '"'] ++ ("CODE".toList ++ (['"', '\n'] ++ (['1', ',', '0', '\n', '"'] ++
    ("COMMENT".toList ++ (['"', '\n'] ++ ((ps.flatMap fun a => "1,0\n\"".toList ++ (a ++ "\"\n".toList)) ++ r)))))))))))) := by
  unfold difHeader
  rw [assoc8]
  refine congrArg _ (congrArg _ (congrArg _ (congrArg _ (congrArg _ (congrArg _ ?_)))))
  exact title_lit _

/-- A DIF file: a row of headings, and for each variable that fits a rule its new name, its comment and its values.  The number of
    columns is right, the number of rows counts all variables. -/
theorem C73_dif_partial {rules : List Rule} {file : Option Yy.Text} (hf : RuleSource rules file) (hp : Plain rules) {db : VDb} {smp : Sample}
    {es : List (Yy.Text × Yy.Text × List Dbl)} (h : Ready rules db smp es) {na missing : Yy.Text} (sep : Yy.Text)
    (hna : Choice "#N/A".toList na missing) {first last : Yy.Text} (hper : first = [] ∨ last = [])
    {cfile : Option (Option (SMap Yy.Text))} (hn : ∀ e ∈ es, '\n' ∉ e.1)
    (hk : ∀ e ∈ es, ∀ u, SMap.find (toKey .comments e.2.1) ((cfile.bind id).getD []) = some u → '\n' ∉ u) :
    ∃ t ps rows, ruleExport true .dif file (some (some db)) cfile first last na sep = .ok (true, some t) ∧ smp.listPeriods = .ok ps ∧
      List.Forall₂ (RowOf (Note ((cfile.bind id).getD [])) limit missing) es rows ∧
      readDif t = some (natToChars (ps.length + 2), natToChars (db.vars.length + 1), difTable (ps.map Period.toChars) rows) ∧
      (es.length = db.vars.length → (difTable (ps.map Period.toChars) rows).length = db.vars.length + 1) := by
  obtain ⟨ps, p1, p2, p3, p4⟩ := periods_fair h.fair
  generalize hcm : (cfile.bind id).getD [] = cmts at hk
  replace hk : ∀ e ∈ es, '\n' ∉ comment cmts e.2.1 := by
    intro e he
    rw [comment]
    cases hf : SMap.find (toKey .comments e.2.1) cmts with
    | none => simp
    | some u => exact hk e he u hf
  have hv := choice_visible hna (by decide)
  have hmn : '\n' ∉ missing := fun h => absurd (hv _ h) (by decide)
  obtain ⟨cf, hcf, hcn⟩ : ∃ cf, conf na sep = cf ∧ cf.na = missing := ⟨_, rfl, setting_choice hna⟩
  have hvf : ∀ v, '\n' ∉ value cf v := by
    intro v h
    rcases value_chars _ h with h | h
    · exact nl_usual _ h rfl
    · rw [hcn] at h; exact hmn h
  have hpos := h.fair.nb_pos
  have hall : ∃ t, texts (difLine cmts cf smp.nb.toNat) (es.map fun e => (e.2.1, e.1, e.2.2)) = .ok t ∧
      Reads (t ++ "-1,0\nEOD\n".toList) ([], (es.map (rowOf cf cmts)).map fun r => Cell.text r.name :: Cell.text r.note :: r.vals.map Cell.num) := by
    have hlen : ∀ e ∈ es, e.2.2.length = smp.nb.toNat := fun e he => h.len _ (renamed_mem h.chosen e he)
    clear h
    induction es with
    | nil => exact ⟨[], rfl, reads_end⟩
    | cons e es ih =>
      obtain ⟨t, t1, t2⟩ := ih (fun e he => hn e (by simp [he])) (fun e he => hk e (by simp [he])) (fun e he => hlen e (by simp [he]))
      have r1 := reads_nums (cf := cf) (vs := e.2.2) (fun v _ => hvf v) t2
      have r2 := reads_text (a := RepFn.stripText (comment cmts e.2.1)) (fun h' => hk e (by simp) (mem_strip h')) r1
      have r3 := reads_text (a := RepFn.stripText e.1) (fun h' => hn e (by simp) (mem_strip h')) r2
      have r4 := reads_bot r3
      refine ⟨bot ++ (difText e.1 ++ (difText (comment cmts e.2.1) ++ e.2.2.flatMap fun v => difValue (value cf v))) ++ t, ?_, ?_⟩
      · rw [List.map_cons, texts, t1, difLine, if_neg (by omega)]
        simp only
        rw [← hlen e (by simp), vec_ok]
        rfl
      · rw [tidy_strip, tidy_strip] at r4
        have e1 : (comment cmts e.2.1).filter (· ≠ '\n') = comment cmts e.2.1 := by
          refine List.filter_eq_self.2 fun a ha => ?_
          have : a ≠ '\n' := fun e' => hk e (by simp) (e' ▸ ha)
          simpa using this
        have e2 : e.2.2.map (fun v => Cell.num (tidy (value cf v))) = (e.2.2.map (value cf)).map Cell.num := by
          rw [List.map_map]
          refine List.map_congr_left fun v _ => ?_
          rw [Function.comp, value_tidy (by rw [hcn]; exact hv)]
        rw [List.append_nil, e2] at r4
        rw [List.map_cons, List.map_cons, rowOf, e1]
        simp only [difText, prePost, List.append_assoc]
        exact r4
  obtain ⟨t, t1, t2⟩ := hall
  have hp' : ∀ x ∈ ps.map Period.toChars, ∀ y ∈ x, Usual y := by
    intro x hx
    obtain ⟨p, hp, rfl⟩ := List.mem_map.1 hx
    exact p4 p hp
  have r1 := reads_texts (xs := ps.map Period.toChars) (fun a ha h' => nl_usual _ (hp' a ha _ h') rfl) t2
  have r2 := reads_text (a := "COMMENT".toList) (by decide) r1
  have r3 := reads_text (a := "CODE".toList) (by decide) r2
  have r4 := reads_bot r3
  have e3 : (ps.map Period.toChars).map (fun a => Cell.text (tidy a)) = (ps.map Period.toChars).map Cell.text := by
    refine List.map_congr_left fun x hx => ?_
    rw [tidy_self fun y hy => usual_visible (hp' x hx y hy)]
  rw [e3, List.append_nil] at r4
  have hrow : List.Forall₂ (RowOf (Note cmts) limit missing) es (es.map (rowOf cf cmts)) := by
    have := rowOf_spec h cf cmts
    rwa [hcn] at this
  refine ⟨difHeader smp.nb.toNat db.vars.length (ps.map Period.toChars) ++ (t ++ "-1,0\nEOD\n".toList), ps, es.map (rowOf cf cmts), ?_, p1,
    hrow, ?_, ?_⟩
  · rw [ruleExport, given_none hper]
    simp only [Res.bind]
    rw [hcm, hcf, write, readRules_source hf]
    simp only [Res.bind]
    rw [if_neg (by simp), h.sample]
    simp only
    rw [dif, p3, chosen_renamed hp h.chosen]
    simp only [Res.bind]
    rw [t1]
    rfl
  · rw [dif_title, dif_head (nl_nat (smp.nb.toNat + 2)) (nl_nat (db.vars.length + 1)) r4, p2]
    rfl
  · intro he
    simp [difTable, he]

/-! ## Samples -/

theorem overlap_swap {a b : Sample} (ha : a.Fair) (hb : b.Fair) {d1 d2 n : Int} (h : VWorld.overlap a b = .ok (d1, d2, n)) :
    VWorld.overlap b a = .ok (d2, d1, n) := by
  by_cases hper : a.start.periodicity = b.start.periodicity
  · obtain ⟨nb, hnb, -, -⟩ := ha.proper.wfs
    have hnb2 : nbPeriodsPerYear b.start.periodicity = .ok nb := by rw [← hper]; exact hnb
    rw [VWorld.overlap_eq ha hb hper hnb] at h
    rw [VWorld.overlap_eq hb ha hper.symm hnb2]
    split at h
    · cases h
    · next hlt =>
      rw [if_neg (by omega)]
      simp only [Res.ok.injEq, Prod.mk.injEq] at h ⊢
      omega
  · rw [VWorld.overlap_mixed hper] at h
    cases h

theorem find_mem {α : Type} {m : SMap α} {k : Name} {x : α} (h : SMap.find k m = some x) : (k, x) ∈ m := by
  induction m with
  | nil => cases h
  | cons e m ih =>
    obtain ⟨k', y⟩ := e
    unfold SMap.find at h
    split at h
    · next hk => subst hk; cases h; exact List.mem_cons_self
    · exact List.mem_cons_of_mem _ (ih h)

theorem go_total {α : Type} {na : α} {nb d1 d2 n : Int} {m : SMap (List α)} (h : ∀ e ∈ m, ∃ y, VWorld.resized na e.2 nb d1 d2 n = .ok y) :
    ∃ r, Idt.resizeAll.go na nb d1 d2 n m = .ok r := by
  induction m with
  | nil => exact ⟨[], rfl⟩
  | cons e m ih =>
    obtain ⟨y, hy⟩ := h e (by simp)
    obtain ⟨r, hr⟩ := ih fun e he => h e (by simp [he])
    refine ⟨(e.1, y) :: r, ?_⟩
    obtain ⟨k, x⟩ := e
    unfold Idt.resizeAll.go
    rw [hy, hr]
    rfl

/-- Two periods choose a part of the values: what is exported is the database with these periods, missing values at periods the
    file does not have. -/
theorem C73_sample_partial (fmt : Fmt) (file : Option Yy.Text) {db : VDb} {old new : Sample} (hs : db.smp = some old) (hf : old.Fair)
    (hlen : ∀ e ∈ db.vars, e.2.length = old.nb.toNat) (cfile : Option (Option (SMap Yy.Text))) (na sep : Yy.Text)
    (hn : new.Fair) (h1 : PerOk new.start) (h2 : PerOk new.stop) (hc : ∃ q, old.Contains q ∧ new.Contains q) :
    ∃ vars, ruleExport true fmt file (some (some db)) cfile new.start.toChars new.stop.toChars na sep =
        ruleExport true fmt file (some (some ⟨some new, vars⟩)) cfile [] [] na sep ∧
      SMap.keys vars = SMap.keys db.vars ∧
      ∀ k x, SMap.find k db.vars = some x → ∃ y, SMap.find k vars = some y ∧ Idt.Image Asc.na new old x y := by
  have hper : ∀ {p : Period}, PerOk p → RepFn.stripText p.toChars = p.toChars ∧ p.toChars ≠ [] := by
    intro p h
    obtain ⟨y, st, e, _⟩ := h.text
    refine ⟨?_, by rw [e]; simp⟩
    refine DynAdj.strip_self fun c hc => ?_
    obtain ⟨nb, hnb, _⟩ := h.wf
    exact usual_visible (usual_period hnb c (List.mem_of_getLast? hc))
  have hg : given new.start.toChars new.stop.toChars = .ok (some new) := by
    rw [given, (hper h1).1, (hper h2).1, if_neg (by simp [(hper h1).2, (hper h2).2]),
      C02_print_parse _ h1.wf h1.per h1.low h1.high]
    simp only [Res.bind]
    rw [C02_print_parse _ h2.wf h2.per h2.low h2.high]
    simp only
    rw [hn.built]
  have hnb := hn.nb_pos
  have hset : ∃ m, setSample new db = .ok ⟨some new, m⟩ ∧ SMap.keys m = SMap.keys db.vars ∧
      ∀ k x, SMap.find k db.vars = some x → ∃ y, SMap.find k m = some y ∧ Idt.Image Asc.na new old x y := by
    rw [setSample, if_neg (by omega), hs]
    simp only
    by_cases he : old = new
    · subst he
      refine ⟨db.vars, by rw [Idt.resizeAll, if_pos rfl]; rfl, rfl, fun k x hx => ⟨x, hx, hlen (k, x) (find_mem hx), fun q t hq => ?_⟩⟩
      obtain ⟨t0, t1⟩ := Idt.position_ok hq
      have hl := hlen (k, x) (find_mem hx)
      simp only at hl
      rw [hq]
      simp only
      rw [List.getD_eq_getElem _ _ (by omega), List.getElem?_eq_getElem (by omega)]
    · cases ho : VWorld.overlap old new with
      | err => exact absurd hc ((VWorld.overlap_err_iff hf hn).1 ho)
      | ub => exact absurd ho (VWorld.overlap_no_ub hf hn)
      | ok b =>
        obtain ⟨d1, d2, n⟩ := b
        have ho' : VWorld.overlap new old = .ok (d2, d1, n) := overlap_swap hf hn ho
        have key : ∀ x : List Dbl, x.length = old.nb.toNat → ∃ y, VWorld.resized Asc.na x new.nb d1 d2 n = .ok y ∧ Idt.Image Asc.na new old x y :=
          fun x hx => Idt.resized_image hn hf ho' hx
        obtain ⟨m, hm⟩ := go_total (na := Asc.na) (nb := new.nb) (d1 := d1) (d2 := d2) (n := n) (m := db.vars)
          (fun e he => (key e.2 (hlen e he)).imp fun y hy => hy.1)
        obtain ⟨g1, g2⟩ := Idt.go_spec db.vars m hm
        refine ⟨m, by rw [Idt.resizeAll, if_neg he, ho]; simp only; rw [hm]; rfl, g1, fun k x hx => ?_⟩
        obtain ⟨y, y1, y2⟩ := g2 k x hx
        obtain ⟨z, z1, z2⟩ := key x (hlen (k, x) (find_mem hx))
        rw [y2] at z1
        cases z1
        exact ⟨y, y1, z2⟩
  obtain ⟨m, m1, m2, m3⟩ := hset
  refine ⟨m, ?_, m2, m3⟩
  rw [ruleExport, ruleExport, hg, given_none (.inl rfl)]
  simp only
  rw [m1]

/-! ## Without rules -/

theorem ready_default {db : VDb} {smp : Sample} (hs : db.smp = some smp) (hf : smp.Fair) (hlen : ∀ e ∈ db.vars, e.2.length = smp.nb.toNat)
    (hlim : ∀ e ∈ db.vars, Dbl.num limit ∉ e.2) (hnames : ∀ e ∈ db.vars, e.1.length ≤ 20) :
    Ready [defaultRule] db smp (db.vars.map fun e => (e.1, e)) := by
  refine ⟨hs, hf, hlen, hlim, ?_⟩
  have := renamed_default (db.vars.map fun e => (e.1, e))
  rw [List.map_map] at this
  have e : db.vars.map (fun e => (e.1, e)) = db.vars.map ((fun e : Yy.Text × Yy.Text × List Dbl => (e.1.take 20, e.2)) ∘ fun e => (e.1, e)) :=
    List.map_congr_left fun e he => by rw [Function.comp, List.take_of_length_le (hnames e he)]
  rw [← e] at this
  exact this

/-- Without rules every variable is exported with its own name; missing values are written `#N/A`. -/
theorem C73_default_partial {db : VDb} {smp : Sample} (hs : db.smp = some smp) (hf : smp.Fair) (hlen : ∀ e ∈ db.vars, e.2.length = smp.nb.toNat)
    (hlim : ∀ e ∈ db.vars, Dbl.num limit ∉ e.2) (hnames : ∀ e ∈ db.vars, e.1.length ≤ 20 ∧ ∀ x ∈ e.1, NameCh x) {c : Char} (hc : Mark c)
    (hc' : c ≠ '#' ∧ c ≠ '/') {cmts : SMap Yy.Text} (hk : ∀ e ∈ cmts, c ∉ e.2) :
    ∃ t ps rows, ruleExport true .csv none (some (some db)) (some (some cmts)) [] [] [] [c] = .ok (true, some t) ∧ smp.listPeriods = .ok ps ∧
      List.Forall₂ (fun e r => r.name = e.1 ∧ Note cmts e.1 r.note ∧ List.Forall₂ (Shown 8 limit "#N/A".toList) e.2 r.vals) db.vars rows ∧
      table c t = csvTable (ps.map Period.toChars) rows := by
  have hN : c ≠ 'N' ∧ c ≠ 'A' := ⟨by rintro rfl; exact hc.2.1 (by decide), by rintro rfl; exact hc.2.1 (by decide)⟩
  obtain ⟨t, ps, rows, h1, h2, h3, h4⟩ := C73_csv_partial (cfile := some (some cmts)) .none plain_default (ready_default hs hf hlen hlim fun e he => (hnames e he).1) hc
    (na := []) (missing := "#N/A".toList) (.inl ⟨rfl, rfl⟩) (by
      intro h
      have : c = '#' ∨ c = 'N' ∨ c = '/' ∨ c = 'A' := by simpa using h
      tauto) (first := []) (last := []) (.inl rfl)
    (by
      intro e he
      obtain ⟨x, hx, rfl⟩ := List.mem_map.1 he
      exact ⟨fun h => hc.2.1 ((hnames x hx).2 c h), fun h => absurd ((hnames x hx).2 _ h) (by decide)⟩)
    (by
      intro e he u hu
      exact hk _ (find_mem hu))
  refine ⟨t, ps, rows, h1, h2, ?_, h4⟩
  rw [List.forall₂_map_left_iff] at h3
  refine ((List.forall₂_and_left _ _).2 ⟨fun e he => he, h3⟩).imp fun e r hr => ?_
  obtain ⟨he, hr⟩ := hr
  obtain ⟨r1, r2, r3⟩ := hr
  refine ⟨?_, r2, r3⟩
  rw [r1, tidy_self]
  intro x hx
  exact usual_visible (.inl ((hnames e he).2 x hx))

/-! ## Precision -/

/-- What is written of a number differs from it by at most half a unit of the eighth digit. -/
theorem C73_precision {q : Rat} (hq : limit ≤ q) {missing t : Yy.Text} (h : Shown 8 limit missing (.num q) t) :
    ∃ r, Signed t r ∧ |q - r| * (2 * 10 ^ 7) ≤ |q| := by
  generalize hv : Dbl.num q = v at h
  cases h with
  | num _ h2 h3 =>
    cases hv
    refine ⟨_, h3, ?_⟩
    have h4 := sig_error (b := 10) (P := 8) (by omega) (by omega) q
    have h5 := h2.2 _ (sig_nearest (b := 10) (P := 8) (by omega) (by omega) q).1
    norm_num at h4 ⊢
    linarith
  | low h2 => cases hv; exact absurd hq (not_le.2 h2)
  | _ => cases hv

/-! ## Where files are not what they should be -/

/-- A tab, or anything else of blanks only, is no separator: the file is the same as without a separator. -/
theorem C73_tab_counterexample (can : Bool) (fmt : Fmt) (rule : Option Yy.Text) (vfile : Option (Option VDb)) (cfile : Option (Option (SMap Yy.Text)))
    (first last na : Yy.Text) {sep : Yy.Text} (h : ∀ c ∈ sep, c.toNat ≤ 32) :
    ruleExport can fmt rule vfile cfile first last na sep = ruleExport can fmt rule vfile cfile first last na [' '] := by
  have e : conf na sep = conf na [' '] := by
    have : RepFn.stripText (sep.take 10) = [] := by
      have := DynAdj.strip_blanks (l := []) (w := sep.take 10) (fun c hc => h c (List.mem_of_mem_take hc)) (by simp)
      simpa using this
    rw [conf, conf, setting, if_pos this]
    rfl
  unfold ruleExport
  rw [e]

/-- A DIF file says that it has more rows than it has when the rules leave out a variable. -/
theorem C73_dif_counterexample {rules : List Rule} {file : Option Yy.Text} (hf : RuleSource rules file) (hp : Plain rules) {db : VDb} {smp : Sample}
    {es : List (Yy.Text × Yy.Text × List Dbl)} (h : Ready rules db smp es) {na missing : Yy.Text} (sep : Yy.Text)
    (hna : Choice "#N/A".toList na missing) (hn : ∀ e ∈ es, '\n' ∉ e.1) (hd : es.length < db.vars.length) :
    ∃ t x n rows, ruleExport true .dif file (some (some db)) none [] [] na sep = .ok (true, some t) ∧
      readDif t = some (x, natToChars n, rows) ∧ rows.length < n := by
  obtain ⟨t, ps, rows, h1, _, h3, h4, _⟩ := C73_dif_partial hf hp h sep hna (first := []) (last := []) (.inl rfl) (cfile := none) hn
    (by intro e _ u hu; cases hu)
  refine ⟨t, _, _, _, h1, h4, ?_⟩
  have := h3.length_eq
  simp only [difTable, List.length_cons, List.length_map]
  omega

/-- Without a file of variables nothing is exported: a null pointer is used (and not the variables in memory). -/
theorem C73_file_undefined {rules : List Rule} {file : Option Yy.Text} (hf : RuleSource rules file) (fmt : Fmt)
    (cfile : Option (Option (SMap Yy.Text))) {first last : Yy.Text} {o : Option Sample} (hg : given first last = .ok o) (na sep : Yy.Text) :
    ruleExport true fmt file none cfile first last na sep = .ub := by
  rw [ruleExport, hg]
  simp only
  rw [write, readRules_source hf]
  simp only [Res.bind]
  rw [if_neg (by simp)]

/-- `export_as` uses a null pointer whenever two periods that make a sample are given. -/
theorem C73_api_undefined {p q : Period} {s : Sample} (hp : PerOk p) (hq : PerOk q) (h : Sample.ofPeriods p q = .ok s) (can : Bool) (fmt : Fmt)
    (rule : Option Yy.Text) (vfile : Option (Option VDb)) (cfile : Option (Option (SMap Yy.Text))) (na sep : Yy.Text) :
    exportAs can fmt rule vfile cfile p.toChars q.toChars na sep = .ub := by
  have hne : ∀ {p : Period}, PerOk p → p.toChars ≠ [] := by
    intro p h
    obtain ⟨y, st, e, _⟩ := h.text
    rw [e]
    simp
  rw [exportAs, if_pos ⟨hne hp, hne hq⟩, C02_print_parse p hp.wf hp.per hp.low hp.high]
  simp only [Res.bind]
  rw [C02_print_parse q hq.wf hq.per hq.low hq.high]
  simp only
  rw [h]

/-- Otherwise `export_as` writes what `EXP_RuleExport` writes. -/
theorem C73_api {fmt : Fmt} {rule : Yy.Text} {db : VDb} {cfile : Option (SMap Yy.Text)} {first last : Yy.Text} (hper : first = [] ∨ last = [])
    (can : Bool) (na sep : Yy.Text) :
    exportAs can fmt (some rule) (some (some db)) (cfile.map some) first last na sep =
      (ruleExport can fmt (some rule) (some (some db)) (cfile.map some) first last na sep).bind fun o => .ok o.2 := by
  rw [exportAs, if_neg (by rcases hper with rfl | rfl <;> simp), if_neg (by cases cfile <;> simp), ruleExport, given_none hper]
  rfl

/-- An export is refused when the variables cannot be loaded, when the periods make no sample, and, but for DIF, when the file cannot
    be created; nothing is written. -/
theorem C73_refused_partial (fmt : Fmt) (file : Option Yy.Text) (vfile : Option (Option VDb)) (cfile : Option (Option (SMap Yy.Text)))
    (first last na sep : Yy.Text) :
    (∀ o can, given first last = .ok o → ruleExport can fmt file (some none) cfile first last na sep = .ok (false, none)) ∧
    (∀ can, given first last = .err → ruleExport can fmt file vfile cfile first last na sep = .ok (false, none)) ∧
    (∀ rules db, RuleSource rules file → fmt ≠ .dif → given first last = .ok none →
      ruleExport false fmt file (some (some db)) cfile first last na sep = .ok (false, none)) := by
  refine ⟨?_, ?_, ?_⟩
  · intro o can h
    rw [ruleExport, h]
  · intro can h
    rw [ruleExport, h]
  · intro rules db hf hd hg
    rw [ruleExport, hg]
    simp only [Res.bind]
    rw [write, readRules_source hf]
    simp only [Res.bind]
    rw [if_pos (by simp [hd])]

/-- DIF reports success when the file cannot be created. -/
theorem C73_create_counterexample {rules : List Rule} {file : Option Yy.Text} (hf : RuleSource rules file) (hp : Plain rules) {db : VDb} {smp : Sample}
    {es : List (Yy.Text × Yy.Text × List Dbl)} (h : Ready rules db smp es) {na missing : Yy.Text} (sep : Yy.Text)
    (hna : Choice "#N/A".toList na missing) (hn : ∀ e ∈ es, '\n' ∉ e.1) :
    ruleExport false .dif file (some (some db)) none [] [] na sep = .ok (true, none) := by
  obtain ⟨t, ps, rows, h1, _⟩ := C73_dif_partial hf hp h sep hna (first := []) (last := []) (.inl rfl) (cfile := none) hn
    (by intro e _ u hu; cases hu)
  rw [ruleExport, given_none (.inl rfl)] at h1 ⊢
  simp only [Res.bind] at h1 ⊢
  rw [write, readRules_source hf] at h1 ⊢
  simp only [Res.bind] at h1 ⊢
  rw [if_neg (by simp), h.sample] at h1 ⊢
  simp only at h1 ⊢
  cases hd : dif (conf na sep) rules smp db.vars (((none : Option (Option (SMap Yy.Text))).bind id).getD []) with
  | ok t =>  rfl
  | err => rw [hd] at h1; cases h1
  | ub => rw [hd] at h1; cases h1

/-! ## `save_csv` -/

theorem csvVals_ok (d : Nat) (sep dec nan : Yy.Text) (vs : List Dbl) :
    csvVals d sep dec nan vs.length vs = .ok (vs.flatMap fun v => sep ++ csvValue d dec nan v) := by
  induction vs with
  | nil => rfl
  | cons v vs ih =>
    rw [List.length_cons, csvVals, ih]
    simp [Res.bind]

theorem csvVals_short (d : Nat) (sep dec nan : Yy.Text) : ∀ (vs : List Dbl) (n : Nat), vs.length < n → csvVals d sep dec nan n vs = .ub
  | [], n + 1, _ => rfl
  | v :: vs, n + 1, h => by
    rw [csvVals, csvVals_short d sep dec nan vs n (by simp at h; omega)]
    rfl

theorem csvValue_pointed {P : Nat} (hP : 1 ≤ P) (d : Char) (nan : Yy.Text) (v : Dbl) : Pointed P limit nan d v (csvValue P [d] nan v) := by
  have hmap : ∀ t : Yy.Text, (t.flatMap fun c => if c = '.' then [d] else [c]) = t.map fun c => if c = '.' then d else c := by
    intro t
    induction t with
    | nil => rfl
    | cons c t ih =>
      rw [List.flatMap_cons, ih, List.map_cons]
      split <;> rfl
  have hdot : ∀ t : Yy.Text, d = '.' → t = t.map fun c => if c = '.' then d else c := by
    intro t e
    conv_lhs => rw [← List.map_id t]
    refine List.map_congr_left fun c _ => ?_
    simp only [id]
    split
    · next h => rw [h, e]
    · rfl
  cases v with
  | num q =>
    by_cases hq : limit ≤ q
    · refine ⟨fmtG P q, .num hq (sig_nearest (by omega) hP q) (fmtG_signed hP q), .inl ⟨⟨q, rfl, hq⟩, ?_⟩⟩
      have : isNumber (.num q) = true := by simpa [isNumber, limit] using hq
      rw [csvValue, if_pos this]
      simp only [List.head?_cons, Option.some.injEq]
      split
      · next h => exact hdot _ h
      · exact hmap _
    · refine ⟨nan, .low (not_le.1 hq), .inr ⟨?_, ?_⟩⟩
      · rintro ⟨q', e, h⟩
        cases e
        exact hq h
      · have : ¬ isNumber (.num q) = true := by simpa [isNumber, limit] using hq
        rw [csvValue, if_neg this]
  | inf =>
    refine ⟨_, .inf, .inr ⟨(by rintro ⟨q, e, _⟩; cases e), ?_⟩⟩
    unfold csvValue
    rw [if_pos (show isNumber Dbl.inf = true from rfl)]
    simp only [List.head?_cons, Option.some.injEq]
    split <;> rfl
  | ninf => exact ⟨_, .ninf, .inr ⟨(by rintro ⟨q, e, _⟩; cases e), rfl⟩⟩
  | nan => exact ⟨_, .nan, .inr ⟨(by rintro ⟨q, e, _⟩; cases e), rfl⟩⟩

theorem csvValue_chars {P : Nat} (hP : 1 ≤ P) {d : Char} {nan : Yy.Text} {v : Dbl} (c : Char) (h : c ∈ csvValue P [d] nan v) :
    Usual c ∨ c = d ∨ c ∈ nan := by
  unfold csvValue at h
  split at h
  · have key : ∀ t : Yy.Text, (∀ x ∈ t, Usual x) → c ∈ (if ([d] : Yy.Text).head? = some '.' then t else t.flatMap fun c => if c = '.' then [d] else [c]) →
        Usual c ∨ c = d ∨ c ∈ nan := by
      intro t ht hc
      split at hc
      · exact .inl (ht c hc)
      · obtain ⟨x, hx, hc⟩ := List.mem_flatMap.1 hc
        split at hc
        · exact .inr (.inl (List.mem_singleton.1 hc))
        · rw [List.mem_singleton.1 hc]; exact .inl (ht x hx)
    cases v with
    | num q => exact key _ (usual_fmtG hP q) h
    | inf => exact key _ usual_inf h
    | ninf => exact key _ usual_inf h
    | nan => exact key _ usual_inf h
  · exact .inr (.inr h)

theorem digits_pos (c : Csv) : 1 ≤ c.digits := by
  unfold Csv.digits
  split
  · omega
  · split
    · omega
    · omega

/-- The row of a name: nothing more for a name that is not there. -/
def SaveRow (digits : Nat) (missing : Yy.Text) (d : Char) (vars : SMap (List Dbl)) (w : Yy.Text) (row : List Yy.Text) : Prop :=
  (SMap.find (toKey .variables w) vars = none ∧ row = [tidy w]) ∨
    ∃ vs ts, SMap.find (toKey .variables w) vars = some vs ∧ row = tidy w :: ts ∧
      List.Forall₂ (fun v t => ∃ u, Pointed digits limit missing d v u ∧ t = tidy u) vs ts

/-- The names that are saved: those of the list in capital letters, or all; each once, in order. -/
def SaveNames (list : List Yy.Text) (vars : SMap (List Dbl)) (ns : List Yy.Text) : Prop :=
  ns.Pairwise (fun a b => nameLt a b = true) ∧
    (list = [] → ns = SMap.keys vars) ∧ (list ≠ [] → ∀ w, w ∈ ns ↔ ∃ x ∈ list, w = x.map toUpperC)

theorem sorted_pairwise {α : Type} {m : SMap α} (h : SMap.Sorted m) : (SMap.keys m).Pairwise (fun a b => nameLt a b = true) := by
  induction m with
  | nil => exact List.Pairwise.nil
  | cons e m ih => exact List.Pairwise.cons h.1 (ih h.2)

theorem saveNames_spec (list : List Yy.Text) {vars : SMap (List Dbl)} (hs : SMap.Sorted vars) : SaveNames list vars (saveNames list vars) := by
  have key : ∀ (l : List Yy.Text) (m : SMap Unit), SMap.Sorted m →
      SMap.Sorted (l.foldl (fun m w => SMap.insert (w.map toUpperC) () m) m) ∧
      ∀ w, w ∈ SMap.keys (l.foldl (fun m w => SMap.insert (w.map toUpperC) () m) m) ↔ w ∈ SMap.keys m ∨ ∃ x ∈ l, w = x.map toUpperC := by
    intro l
    induction l with
    | nil => intro m hm; exact ⟨hm, by simp⟩
    | cons a l ih =>
      intro m hm
      obtain ⟨h1, h2⟩ := ih _ (SMap.sorted_insert (a.map toUpperC) () m hm)
      refine ⟨h1, fun w => ?_⟩
      rw [List.foldl_cons, h2, SMap.mem_keys_iff, SMap.mem_keys_iff]
      by_cases hw : w = a.map toUpperC
      · subst hw
        simp
      · simp [SMap.find_insert, hw]
  unfold SaveNames saveNames
  by_cases hl : list = []
  · rw [if_pos hl]
    exact ⟨sorted_pairwise hs, fun _ => rfl, fun h => absurd hl h⟩
  · rw [if_neg hl]
    obtain ⟨h1, h2⟩ := key list [] trivial
    refine ⟨sorted_pairwise h1, fun h => absurd h hl, fun _ w => ?_⟩
    rw [h2]
    simp [SMap.keys]

theorem labels_ok {smp : Sample} (hf : smp.Fair) : ∃ ps, smp.listPeriods = .ok ps ∧
    (if smp.start.periodicity = 'Y' then Res.ok ((List.range smp.nb.toNat).map fun i => intToChars (smp.start.year + (i : Nat)))
      else periods smp) = .ok (ps.map label) ∧ ∀ p ∈ ps, ∀ x ∈ label p, Usual x := by
  obtain ⟨nb, hnb, h1, h2⟩ := hf.proper.wfs
  obtain ⟨ps, e1, e2, e3⟩ := Sample.listLoop_spec hnb h1 h2 smp.nb.toNat 0
  have hp := hf.nb_pos
  have hl : smp.listPeriods = .ok ps := by rw [Sample.listPeriods, if_neg (by omega), e1]
  have hper : ∀ p ∈ ps, p.periodicity = smp.start.periodicity := by
    intro p hp
    obtain ⟨i, hi, rfl⟩ := List.mem_iff_getElem.1 hp
    obtain ⟨q, hq, hs⟩ := e3 i (by omega)
    obtain ⟨q', hq', hper, _⟩ := Period.shift_spec hnb h1 h2 (0 + i)
    rw [hs] at hq'
    cases hq'
    rw [List.getElem?_eq_getElem hi] at hq
    cases hq
    exact hper
  refine ⟨ps, hl, ?_, ?_⟩
  · by_cases hY : smp.start.periodicity = 'Y'
    · rw [if_pos hY]
      congr 1
      refine List.ext_getElem (by simp [e2]) fun i h3 h4 => ?_
      have hi : i < ps.length := by simpa using h4
      obtain ⟨q, hq, hs⟩ := e3 i (by omega)
      obtain ⟨q', hq', hper', g1, g2, g3⟩ := Period.shift_spec hnb h1 h2 (0 + i)
      rw [hs] at hq'
      cases hq'
      rw [List.getElem?_eq_getElem hi] at hq
      injection hq with hq
      have hnb1 : nb = 1 := by
        rw [hY] at hnb
        have : nbPeriodsPerYear 'Y' = .ok 1 := by decide +kernel
        rw [this] at hnb
        injection hnb with e
        exact e.symm
      rw [List.getElem_map, List.getElem_map, List.getElem_range, label, hq, if_pos (hper'.trans hY)]
      congr 1
      subst hnb1
      omega
    · rw [if_neg hY, periods, e1]
      simp only [Res.bind]
      congr 1
      refine List.map_congr_left fun p hp => ?_
      rw [label, if_neg (by rw [hper p hp]; exact hY)]
  · intro p hp
    unfold label
    split
    · exact usual_int _
    · exact usual_period (by rw [hper p hp]; exact hnb)

/-- `save_csv` without a sample: a line of headings, and for each name its values. -/
theorem C73_save_partial {cs : Csv} {s d : Char} (hs : cs.sep = some [s]) (hd : cs.dec = some [d]) (hm : Mark s) (hd1 : d ≠ s) (hd2 : d ≠ '\n')
    {axes nan : Yy.Text} (hax : cs.axes = some axes ∧ axes ≠ [] ∨ (cs.axes = none ∨ cs.axes = some []) ∧ axes = "var".toList)
    (hax1 : s ∉ axes ∧ '\n' ∉ axes) (hs' : s ≠ '\\') (hnan : cs.nan.getD [] = nan) (hn1 : s ∉ nan ∧ '\n' ∉ nan)
    {db : VDb} {smp : Sample} (hsm : db.smp = some smp) (hf : smp.Fair) (hlen : ∀ e ∈ db.vars, e.2.length = smp.nb.toNat)
    (hso : SMap.Sorted db.vars) {list : List Yy.Text} (hnames : ∀ e ∈ db.vars, s ∉ e.1 ∧ '\n' ∉ e.1)
    (hlist : ∀ w ∈ list, s ∉ w.map toUpperC ∧ '\n' ∉ w.map toUpperC) :
    ∃ t ps ns rows, saveCsv cs list none db = .ok (some t) ∧ smp.listPeriods = .ok ps ∧ SaveNames list db.vars ns ∧
      List.Forall₂ (SaveRow cs.digits nan d db.vars) ns rows ∧
      between s t = (tidy (axes ++ "\\time".toList) :: ps.map label) :: rows := by
  obtain ⟨ps, p1, p2, p3⟩ := labels_ok hf
  have hsn : s ≠ '\n' := by rintro rfl; exact absurd hm.1 (by decide)
  have hP := digits_pos cs
  have hnsp := saveNames_spec list hso
  have hfree : ∀ w ∈ saveNames list db.vars, s ∉ w ∧ '\n' ∉ w := by
    intro w hw
    by_cases hl : list = []
    · rw [hnsp.2.1 hl] at hw
      obtain ⟨v, hv⟩ := (SMap.mem_keys_iff w db.vars).1 hw
      exact hnames (w, v) (find_mem hv)
    · obtain ⟨x, hx, rfl⟩ := (hnsp.2.2 hl w).1 hw
      exact hlist x hx
  have hv : ∀ v, s ∉ csvValue cs.digits [d] nan v ∧ '\n' ∉ csvValue cs.digits [d] nan v := by
    intro v
    constructor
    · intro h
      rcases csvValue_chars hP _ h with h | h | h
      · exact mark_usual hm h rfl
      · exact hd1 h.symm
      · exact hn1.1 h
    · intro h
      rcases csvValue_chars hP _ h with h | h | h
      · exact nl_usual _ h rfl
      · exact hd2 h.symm
      · exact hn1.2 h
  have hall : ∀ ns : List Yy.Text, (∀ w ∈ ns, s ∉ w ∧ '\n' ∉ w) →
      ∃ t rows, texts (saveLine cs.digits [s] [d] nan smp db.vars) ns = .ok t ∧
        List.Forall₂ (SaveRow cs.digits nan d db.vars) ns rows ∧ between s t = rows := by
    intro ns
    induction ns with
    | nil => intro _; exact ⟨[], [], rfl, .nil, by rw [between, lines_nil]; rfl⟩
    | cons w ns ih =>
      intro hw
      obtain ⟨t, rows, t1, t2, t3⟩ := ih fun w h => hw w (by simp [h])
      have hw0 := hw w (by simp)
      cases hfi : SMap.find (toKey .variables w) db.vars with
      | none =>
        refine ⟨w ++ '\n' :: t, [tidy w] :: rows, ?_, .cons (.inl ⟨hfi, rfl⟩) t2, ?_⟩
        · rw [texts, saveLine, hfi, t1]
          simp [Res.bind]
        · rw [between, lines_cons hw0.2, List.map_cons, splitOn_end hw0.1, ← t3]
          rfl
      | some vs =>
        have hl := hlen _ (find_mem hfi)
        simp only at hl
        have hline : '\n' ∉ w ++ vs.flatMap fun v => s :: csvValue cs.digits [d] nan v := by
          intro h
          rcases List.mem_append.1 h with h | h
          · exact hw0.2 h
          · refine not_mem_flat (fun v _ h => ?_) h
            rcases List.mem_cons.1 h with h | h
            · exact hsn h.symm
            · exact (hv v).2 h
        refine ⟨(w ++ vs.flatMap fun v => s :: csvValue cs.digits [d] nan v) ++ '\n' :: t,
          (tidy w :: vs.map fun v => tidy (csvValue cs.digits [d] nan v)) :: rows, ?_, .cons (.inr ⟨vs, _, hfi, rfl, ?_⟩) t2, ?_⟩
        · rw [texts, saveLine, hfi, t1]
          simp only
          rw [← hl, csvVals_ok]
          simp [Res.bind]
        · rw [List.forall₂_map_right_iff, List.forall₂_same]
          exact fun v _ => ⟨_, csvValue_pointed hP d nan v, rfl⟩
        · rw [between, lines_cons hline, List.map_cons, split_flat hw0.1 fun v _ => (hv v).1, ← t3, List.map_cons, List.map_map]
          rfl
  obtain ⟨t, rows, t1, t2, t3⟩ := hall _ hfree
  have hti : ∀ x ∈ "time".toList, Usual x := by intro x hx; left; revert x; decide
  have hh1 : s ∉ axes ++ "\\time".toList := by
    intro h
    rcases List.mem_append.1 h with h | h
    · exact hax1.1 h
    · rcases List.mem_cons.1 (show s ∈ '\\' :: "time".toList from h) with h | h
      · exact hs' h
      · exact mark_usual hm (hti _ h) rfl
  have hh2 : '\n' ∉ axes ++ "\\time".toList := by
    intro h
    rcases List.mem_append.1 h with h | h
    · exact hax1.2 h
    · revert h; decide
  have hlab : ∀ l ∈ ps.map label, ∀ x ∈ l, Usual x := by
    intro l hl
    obtain ⟨p, hp, rfl⟩ := List.mem_map.1 hl
    exact p3 p hp
  have hhead : '\n' ∉ (axes ++ "\\time".toList) ++ (ps.map label).flatMap fun l => s :: l := by
    intro h
    rcases List.mem_append.1 h with h | h
    · exact hh2 h
    · refine not_mem_flat (fun l hl h => ?_) h
      rcases List.mem_cons.1 h with h | h
      · exact hsn h.symm
      · exact nl_usual _ (hlab l hl _ h) rfl
  have hax' : (if cs.axes.getD [] = [] then ['v', 'a', 'r'] else cs.axes.getD []) = axes := by
    rcases hax with ⟨h, hne⟩ | ⟨h | h, rfl⟩
    · rw [h]; exact if_neg hne
    · rw [h]; rfl
    · rw [h]; rfl
  refine ⟨((axes ++ "\\time".toList) ++ (ps.map label).flatMap fun l => s :: l) ++ '\n' :: t, ps, saveNames list db.vars, rows, ?_, p1, hnsp, t2, ?_⟩
  · rw [saveCsv, hs, hd]
    simp only [Option.or, hsm]
    rw [hax', saveHeader, p2]
    simp only [Res.bind]
    rw [hnan, t1]
    simp
  · rw [between, lines_cons hhead, List.map_cons, split_flat hh1 (f := fun l => l) fun l hl h => mark_usual hm (hlab l hl _ h) rfl, ← t3]
    simp only [List.map_cons, List.map_id']
    congr 2
    conv_rhs => rw [← List.map_id (ps.map label)]
    exact List.map_congr_left fun l hl => tidy_self fun x hx => usual_visible (hlab l hl x hx)

/-- With the settings of the program, `save_csv` writes in a literal string. -/
theorem C73_save_default_undefined {cs : Csv} (h : cs.sep.getD [] = [] ∨ cs.dec.getD [] = []) (list : List Yy.Text) (smpl : Option Sample) (db : VDb) :
    saveCsv cs list smpl db = .ub := by
  unfold saveCsv
  split
  · next s0 s d0 d h1 h2 =>
    rw [h1, h2] at h
    simp at h
  · rfl

/-- With a sample `save_csv` writes the first values of a variable, whatever the first period of the sample is: here the value of 2000 is
    written below 2001. -/
theorem C73_save_sample_counterexample :
    saveCsv ⟨some [';'], some [','], none, none, 15⟩ [] (some ⟨⟨2001, 1, 'Y'⟩, ⟨2001, 1, 'Y'⟩, 1⟩) ⟨some years, [(['A'], [.num 1, .num 2])]⟩ =
      .ok (some "var\\time;2001\nA;1\n".toList) := by
  decide +kernel

/-- With a sample that is longer than that of the variables, `save_csv` reads behind their end. -/
theorem C73_save_behind_undefined {cs : Csv} {s d : Char} (hs : cs.sep = some [s]) (hd : cs.dec = some [d]) {db : VDb} {new : Sample} (hf : new.Fair)
    {w : Yy.Text} {vs : List Dbl} (hw : w.map toUpperC = w ∧ trim w = w) (hv : SMap.find w db.vars = some vs) (hl : vs.length < new.nb.toNat) :
    saveCsv cs [w] (some new) db = .ub := by
  obtain ⟨ps, _, p2, _⟩ := labels_ok hf
  have hk : toKey .variables w = w := by
    show toUpper (trim w) = w
    rw [hw.2]
    exact hw.1
  have hn : saveNames [w] db.vars = [w] := by
    simp [saveNames, SMap.insert, SMap.keys, hw.1]
  rw [saveCsv, hs, hd]
  simp only [Option.or]
  rw [hn, saveHeader, p2]
  simp only [Res.bind]
  rw [texts, saveLine, hk, hv]
  simp only
  rw [csvVals_short _ _ _ _ _ _ hl]
  rfl

/-- More than 15 digits are 6 digits. -/
theorem C73_digits_counterexample {cs : Csv} (h : 15 < cs.nbdec) (list : List Yy.Text) (smpl : Option Sample) (db : VDb) :
    saveCsv cs list smpl db = saveCsv { cs with nbdec := 6 } list smpl db := by
  have : cs.digits = ({ cs with nbdec := 6 } : Csv).digits := by
    rw [Csv.digits, Csv.digits, if_pos (.inr h)]
    rfl
  unfold saveCsv
  rw [this]

/-! ## Examples -/

/-- Three variables, the second of them missing once. -/
def exDb : VDb := ⟨some years, [("A_X".toList, [.num (1 / 2), .num 1234567891]), ("B_Y".toList, [na, .num 3]), ("C".toList, [.num 5, .num 6])]⟩

def exNotes : SMap Yy.Text := [("A_X".toList, " half\n of it ".toList)]

theorem years_fair : years.Fair := ⟨1, ⟨⟨1, rfl, by decide, by decide⟩, ⟨1, rfl, by decide, by decide⟩, rfl, rfl⟩, by decide, rfl⟩

theorem exDb_ready : Ready [("A_*".toList, "--+".toList), ("B*".toList, "T_+++".toList)] exDb years
    [("X".toList, "A_X".toList, [.num (1 / 2), .num 1234567891]), ("T_B_Y".toList, "B_Y".toList, [na, .num 3])] := by
  have hA := exRules_plain ("A_*".toList, "--+".toList) (by simp)
  have hB := exRules_plain ("B*".toList, "T_+++".toList) (by simp)
  have no : ∀ {p s : Yy.Text}, Grep.Simple p → Grep.NoStarRun p → Grep.grep Grep.noCase '*' p s = .ok false → ¬ Grep.Cut Grep.noCase p s :=
    fun h hr e hc => by cases (cut_iff h hr false e).2 hc
  refine ⟨rfl, years_fair, by decide, by decide +kernel, ?_⟩
  refine .keep (.this ((cut_iff hA.1 hA.2 true (by decide +kernel)).1 rfl)) ?_
  refine .keep (.later (no hA.1 hA.2 (by decide +kernel)) (.this ((cut_iff hB.1 hB.2 true (by decide +kernel)).1 rfl))) ?_
  exact .drop (.later (no hA.1 hA.2 (by decide +kernel)) (.later (no hB.1 hB.2 (by decide +kernel)) .none)) .nil

theorem exNotes_free {c : Char} (hc : c ∉ " half\n of it ".toList) :
    ∀ w u, SMap.find (toKey .comments w) exNotes = some u → c ∉ u := by
  intro w u hu
  have := find_mem hu
  simp only [exNotes, List.mem_singleton, Prod.mk.injEq] at this
  rw [this.2]
  exact hc

example : ∃ t ps rows, ruleExport true .csv (some exRules) (some (some exDb)) (some (some exNotes)) [] [] "?".toList ";".toList = .ok (true, some t) ∧
      years.listPeriods = .ok ps ∧ List.Forall₂ (RowOf (Note exNotes) limit "?".toList)
        [("X".toList, "A_X".toList, [.num (1 / 2), .num 1234567891]), ("T_B_Y".toList, "B_Y".toList, [na, .num 3])] rows ∧
      table ';' t = csvTable (ps.map Period.toChars) rows :=
  C73_csv_partial exRules_file exRules_plain exDb_ready (by unfold Mark; decide) (.inr ⟨by decide, by decide, by decide, rfl⟩) (by decide) (.inl rfl)
    (by decide) (fun e _ => exNotes_free (by decide) e.2.1)

/-- The text itself. -/
example : ruleExport true .csv (some exRules) (some (some exDb)) (some (some exNotes)) [] [] "?".toList ";".toList =
    .ok (true, some "code;comment;2000Y1;2001Y1;\nX;  half of it; 0.5;1.2345679e+09;\nT_B_Y; ; ?;3;\n".toList) := by
  decide +kernel

example : ∃ t ps rows, ruleExport true .rotated (some exRules) (some (some exDb)) none [] [] [] ";".toList = .ok (true, some t) ∧
      years.listPeriods = .ok ps ∧ List.Forall₂ (RowOf (Note []) limit "#N/A".toList)
        [("X".toList, "A_X".toList, [.num (1 / 2), .num 1234567891]), ("T_B_Y".toList, "B_Y".toList, [na, .num 3])] rows ∧
      table ';' t = rotTable (ps.map Period.toChars) rows :=
  C73_rotated_partial exRules_file exRules_plain exDb_ready (by unfold Mark; decide) (.inl ⟨rfl, rfl⟩) (by decide) (.inl rfl) (by decide)

example : ruleExport true .rotated (some exRules) (some (some exDb)) none [] [] "?".toList ";".toList =
    .ok (true, some "; X; T_B_Y; \n2000Y1; 0.5; ?; \n2001Y1; 1.2345679e+09; 3; \n".toList) := by
  decide +kernel

/-- A DIF file of a database with a rule that leaves out the variable `C`: there are three rows, the file says four. -/
example : ∃ t x n rows, ruleExport true .dif (some exRules) (some (some exDb)) none [] [] [] [] = .ok (true, some t) ∧
    readDif t = some (x, natToChars n, rows) ∧ rows.length < n :=
  C73_dif_counterexample exRules_file exRules_plain exDb_ready [] (.inl ⟨rfl, rfl⟩) (by decide) (by decide)

example : (match ruleExport true .dif (some exRules) (some (some exDb)) none [] [] "?".toList [] with
    | .ok (true, some t) => (readDif t).map fun r => (r.1, r.2.1, r.2.2.length)
    | _ => none) = some ("4".toList, "4".toList, 3) := by decide +kernel

/-- Another sample. -/
example : ruleExport true .csv (some exRules) (some (some exDb)) (some (some exNotes)) "2001Y1".toList "2002Y1".toList "?".toList ";".toList =
    .ok (true, some "code;comment;2001Y1;2002Y1;\nX;  half of it; 1.2345679e+09;?;\nT_B_Y; ; 3;?;\n".toList) := by
  decide +kernel

example : ∃ t ps rows, ruleExport true .csv none (some (some exDb)) (some (some exNotes)) [] [] [] [';'] = .ok (true, some t) ∧ years.listPeriods = .ok ps ∧
      List.Forall₂ (fun e r => r.name = e.1 ∧ Note exNotes e.1 r.note ∧ List.Forall₂ (Shown 8 limit "#N/A".toList) e.2 r.vals) exDb.vars rows ∧
      table ';' t = csvTable (ps.map Period.toChars) rows :=
  C73_default_partial rfl years_fair (by decide) (by decide +kernel)
    (by unfold NameCh; decide +kernel) (by unfold Mark; decide) (by decide) (by decide)

/-- The number between the missing values and the others is written as `--`. -/
theorem C73_limit_counterexample : ruleExport true .csv none (some (some ⟨some years, [("C".toList, [.num limit, .num 6])]⟩)) none [] [] "?".toList ";".toList =
    .ok (true, some "code;comment;2000Y1;2001Y1;\nC; ; --;6;\n".toList) := by
  decide +kernel

/-- A comment with the separator makes a further column; a comment of two lines makes a DIF file that cannot be read. -/
theorem C73_comment_counterexample :
    ruleExport true .csv none (some (some ⟨some years, [("C".toList, [.num 5, .num 6])]⟩)) (some (some [("C".toList, "a;b".toList)])) [] [] [] ";".toList =
      .ok (true, some "code;comment;2000Y1;2001Y1;\nC; a;b; 5;6;\n".toList) ∧
    ((match ruleExport true .dif none (some (some ⟨some years, [("C".toList, [.num 5, .num 6])]⟩)) (some (some [("C".toList, "a\nb".toList)])) [] [] [] [] with
      | .ok (true, some t) => some (readDif t)
      | _ => none) = some none) := by
  constructor <;> decide +kernel

/-- `save_csv` with names in another order, one of them unknown. -/
example : ∃ t ps ns rows, saveCsv ⟨some [';'], some [','], some "?".toList, none, 3⟩ ["a_x".toList, "Z".toList, "b_Y".toList] none exDb = .ok (some t) ∧
      years.listPeriods = .ok ps ∧ SaveNames ["a_x".toList, "Z".toList, "b_Y".toList] exDb.vars ns ∧
      List.Forall₂ (SaveRow 3 "?".toList ',' exDb.vars) ns rows ∧
      between ';' t = (tidy ("var".toList ++ "\\time".toList) :: ps.map label) :: rows :=
  C73_save_partial (cs := ⟨some [';'], some [','], some "?".toList, none, 3⟩) rfl rfl (by unfold Mark; decide) (by decide) (by decide) (.inr ⟨.inl rfl, rfl⟩)
    (by decide) (by decide) rfl (by decide) rfl years_fair (by decide) (by unfold exDb; simp only [SMap.Sorted]; decide +kernel) (by decide +kernel) (by decide +kernel)

example : saveCsv ⟨some [';'], some [','], some "?".toList, none, 3⟩ ["a_x".toList, "Z".toList, "b_Y".toList] none exDb =
    .ok (some "var\\time;2000;2001\nA_X;0,5;1,23e+09\nB_Y;?;3\nZ\n".toList) := by decide +kernel

/-- A sample of three years on variables of two. -/
example : saveCsv ⟨some [';'], some [','], none, none, 15⟩ ["C".toList] (some ⟨⟨2000, 1, 'Y'⟩, ⟨2002, 1, 'Y'⟩, 3⟩) exDb = .ub :=
  C73_save_behind_undefined rfl rfl ⟨2, ⟨⟨1, rfl, by decide, by decide⟩, ⟨1, rfl, by decide, by decide⟩, rfl, rfl⟩, by decide, rfl⟩
    (w := "C".toList) (vs := [.num 5, .num 6]) (by decide) (by decide) (by decide)

/-- 2001 and 2002 of variables of 2000 and 2001. -/
example : ∃ vars, ruleExport true .csv (some exRules) (some (some exDb)) none (⟨2001, 1, 'Y'⟩ : Period).toChars (⟨2002, 1, 'Y'⟩ : Period).toChars [] [';'] =
        ruleExport true .csv (some exRules) (some (some ⟨some ⟨⟨2001, 1, 'Y'⟩, ⟨2002, 1, 'Y'⟩, 2⟩, vars⟩)) none [] [] [] [';'] ∧
      SMap.keys vars = SMap.keys exDb.vars ∧
      ∀ k x, SMap.find k exDb.vars = some x → ∃ y, SMap.find k vars = some y ∧ Idt.Image Asc.na ⟨⟨2001, 1, 'Y'⟩, ⟨2002, 1, 'Y'⟩, 2⟩ years x y :=
  C73_sample_partial (new := ⟨⟨2001, 1, 'Y'⟩, ⟨2002, 1, 'Y'⟩, 2⟩) .csv _ rfl years_fair (by decide) none [] [';']
    ⟨1, ⟨⟨1, rfl, by decide, by decide⟩, ⟨1, rfl, by decide, by decide⟩, rfl, rfl⟩, by decide, rfl⟩ perOk_2001
    ⟨⟨1, by decide, by decide, by decide⟩, by simp [IsPeriodicity], by decide, by decide⟩
    ⟨⟨2001, 1, 'Y'⟩, ⟨perOk_2001.wf, rfl, 1, rfl, by decide, by decide⟩, ⟨perOk_2001.wf, rfl, 1, rfl, by decide, by decide⟩⟩

example : ∃ r, Signed (value ⟨[';'], "?".toList⟩ (.num (2 / 3))) r ∧ |2 / 3 - r| * (2 * 10 ^ 7) ≤ |(2 / 3 : Rat)| :=
  C73_precision (missing := "?".toList) (by decide +kernel) (value_shown (cf := ⟨[';'], "?".toList⟩) (by decide +kernel))

example (vfile : Option (Option VDb)) : exportAs true .csv (some exRules) vfile none (⟨2000, 1, 'Y'⟩ : Period).toChars (⟨2001, 1, 'Y'⟩ : Period).toChars [] [] = .ub :=
  C73_api_undefined perOk_2000 perOk_2001 (s := years) (by decide +kernel) _ _ _ _ _ _ _

example : ruleExport false .dif (some exRules) (some (some exDb)) none [] [] [] [] = .ok (true, none) :=
  C73_create_counterexample exRules_file exRules_plain exDb_ready [] (.inl ⟨rfl, rfl⟩) (by decide)

example : ruleExport true .csv (some exRules) none none [] [] [] [] = .ub := C73_file_undefined exRules_file .csv none (given_none (.inl rfl)) [] []

end Exp
end Iode
