import Verif.Lemmas.AscTblSave
import Verif.Lemmas.Names

/-!
# C52  Tables are restored from their text form

See `properties.jsonl`.  Texts are those of Spec/AscTbl.lean; conversions between code pages are those of Props/C49.lean.
-/
namespace Iode
namespace Asc
namespace Tables
open Yy Written Printf Decimals
open Texts (Decoded Coded Fits toUtf8_decoded toOem_coded clean_kept fold_find fold_sorted)
open Equations (clean_append)
open Lec (kept Clean)
open Lec.Written (Gap NameEnd NumEnd NameCh Digit White Digits dec)

/-! ## Loading -/

/-- The cell that is meant: a formula that does not compile is empty; a text has no quotes at its ends, and is centered if there is
    a `#` in it. -/
def CellMeans (cv : Conv) (valid : Yy.Text → Bool) (c : SCell) (t : TCell) : Prop :=
  ∃ u, Decoded cv c.text u ∧
    ((c.formula = true ∧ t = ⟨.lec (if u = [] then none else some (if valid u then u else [])), formOf 64 c.marks⟩) ∨
     (c.formula = false ∧ u ≠ ['"'] ∧ ∃ v, Stripped u v ∧ t = ⟨.str v, formOf (if '#' ∈ u then 8 else 16) c.marks⟩))

/-- The line that is meant. -/
def LineMeans (cv : Conv) (valid : Yy.Text → Bool) (s : SLine) (l : TLine) : Prop :=
  match s with
  | .cells cs gs => l.type = 110 ∧ List.Forall₂ (CellMeans cv valid) cs l.cells ∧ l.graph = graphOf gs ∧ l.right = rightOf gs
  | .title c gs => l.type = 113 ∧ List.Forall₂ (CellMeans cv valid) [c] l.cells ∧ l.graph = graphOf gs ∧ l.right = rightOf gs
  | .plain k gs => l.type = k.code ∧ l.cells = [] ∧ l.graph = graphOf gs ∧ l.right = rightOf gs

/-- A setting: 0 if it is not given. -/
def SetMeans (o : Option Nat) (v : Int) : Prop := (o = none ∧ v = 0) ∨ ∃ n, o = some n ∧ Wraps n v

/-- A bound: the `float` of the number, missing if it is not given. -/
def BoundMeans (o : Option (Option Rat)) (v : Dbl) : Prop :=
  (∃ q, o = some (some q) ∧ v = toFloat (ieee q)) ∨ ((o = none ∨ o = some none) ∧ v = toFloat na)

/-- The dividers when none are given: the first one is `1`. -/
def noDividers (valid : Yy.Text → Bool) (n : Nat) : List TCell :=
  ⟨.lec (some (if valid ['1'] then ['1'] else [])), 16⟩ :: List.replicate (n - 1) ⟨.lec none, 64⟩

/-- The table that is meant by a definition. -/
structure Means (cv : Conv) (valid : Yy.Text → Bool) (d : TDef) (t : Tab) : Prop where
  ncols : t.ncols = d.cols
  language : t.language = ((lastE SEntry.lang? d.entries).map Lang.code).getD 100
  align : t.align = ((lastE SEntry.align? d.entries).map Side.code).getD 0
  box : SetMeans (lastE (SEntry.set? .box) d.entries) t.box
  axis : SetMeans (lastE (SEntry.set? .axis) d.entries) t.axis
  gridx : SetMeans (lastE (SEntry.set? .xgrid) d.entries) t.gridx
  gridy : SetMeans (lastE (SEntry.set? .ygrid) d.entries) t.gridy
  ymin : BoundMeans (lastE (SEntry.bound? .ymin) d.entries) t.ymin
  ymax : BoundMeans (lastE (SEntry.bound? .ymax) d.entries) t.ymax
  zmin : BoundMeans (lastE (SEntry.bound? .zmin) d.entries) t.zmin
  zmax : BoundMeans (lastE (SEntry.bound? .zmax) d.entries) t.zmax
  divider : (lastE SEntry.div? d.entries = none ∧ t.divider = noDividers valid d.cols) ∨
    ∃ cs, lastE SEntry.div? d.entries = some cs ∧ List.Forall₂ (CellMeans cv valid) cs t.divider
  lines : List.Forall₂ (LineMeans cv valid) (d.entries.filterMap SEntry.line?) t.lines
  rest : t.repeatCols = 0 ∧ t.attr = 0 ∧ t.shadow = 0

/-- A cell that can be read. -/
def CellAccepted (cv : Conv) (c : SCell) : Prop := ∃ u, Decoded cv c.text u ∧ (c.formula = false → u ≠ ['"'])

def Accepted (cv : Conv) : SEntry → Prop
  | .div cs => ∀ c ∈ cs, CellAccepted cv c
  | .line (.cells cs _) => ∀ c ∈ cs, CellAccepted cv c
  | .line (.title c _) => CellAccepted cv c
  | _ => True

theorem stripped_bare {u v : Yy.Text} (h : Stripped u v) (hu : u ≠ ['"']) : bare u = v := by
  obtain ⟨a, b, rfl, ha, hb⟩ := h
  have key : ∀ b : Yy.Text, (b = ['"'] ∨ (b = [] ∧ v.getLast? ≠ some '"')) →
      (if (v ++ b).getLast? = some '"' then (v ++ b).dropLast else v ++ b) = v := by
    intro b hb
    rcases hb with rfl | ⟨rfl, h⟩
    · simp
    · simp [h]
  unfold bare
  rcases ha with rfl | ⟨rfl, ha⟩
  · simp only [List.cons_append, List.nil_append, List.head?_cons, if_true, List.tail_cons]
    exact key b hb
  · simp only [List.nil_append] at ha ⊢
    rw [if_neg ha]
    exact key b hb

theorem cell_ok {cv : Conv} {c : SCell} (h : CellAccepted cv c) (h0 : ∀ x ∈ c.text, x.toNat ≠ 0) : CellOk cv c := by
  obtain ⟨u, h1, h2⟩ := h
  have := toUtf8_decoded h1 h0
  exact ⟨h0, ⟨u, this⟩, fun hf e => h2 hf (Option.some.inj (this.symm.trans e))⟩

theorem cell_eq {cv : Conv} {valid : Yy.Text → Bool} {c : SCell} {t : TCell} (h : CellMeans cv valid c t)
    (h0 : ∀ x ∈ c.text, x.toNat ≠ 0) : cellOf cv valid c = t := by
  obtain ⟨u, h1, h2⟩ := h
  have hu := toUtf8_decoded h1 h0
  unfold cellOf
  rw [hu]
  simp only [Option.getD_some]
  rcases h2 with ⟨hf, rfl⟩ | ⟨hf, hq, v, hv, rfl⟩
  · rw [hf, if_pos rfl, marks_fold _ _ (by simp)]
    cases u <;> simp [setLec]
  · rw [hf, if_neg (by simp), marks_fold _ _ (by dsimp only; split <;> simp), stripped_bare hv hq]
    simp

theorem cells_eq {cv : Conv} {valid : Yy.Text → Bool} {cs : List SCell} {ts : List TCell} (h : List.Forall₂ (CellMeans cv valid) cs ts)
    (h0 : ∀ c ∈ cs, ∀ x ∈ c.text, x.toNat ≠ 0) : cs.map (cellOf cv valid) = ts := by
  induction h with
  | nil => rfl
  | @cons c t cs ts h _ ih =>
    rw [List.map_cons, cell_eq h (h0 c (by simp)), ih fun c hc => h0 c (by simp [hc])]

/-- The cells of an entry. -/
def cellsOf : SEntry → List SCell
  | .div cs => cs
  | .line (.cells cs _) => cs
  | .line (.title c _) => [c]
  | _ => []

theorem cell_tok (c : SCell) : TTok.str c.text ∈ c.toks := by simp [SCell.toks]

theorem cells_tok {e : SEntry} {c : SCell} (h : c ∈ cellsOf e) : TTok.str c.text ∈ e.toks := by
  cases e with
  | div cs => exact List.mem_cons_of_mem _ (List.mem_flatMap.2 ⟨c, h, cell_tok c⟩)
  | line l =>
    cases l with
    | cells cs gs => exact List.mem_cons_of_mem _ (List.mem_append_left _ (List.mem_flatMap.2 ⟨c, h, cell_tok c⟩))
    | title c' gs =>
      rw [List.mem_singleton.1 h]
      exact List.mem_cons_of_mem _ (List.mem_cons_of_mem _ (List.mem_append_left _ (cell_tok c')))
    | plain k gs => cases h
  | _ => cases h

theorem line_eq {cv : Conv} {valid : Yy.Text → Bool} {s : SLine} {l : TLine} (h : LineMeans cv valid s l)
    (h0 : ∀ c ∈ cellsOf (.line s), ∀ x ∈ c.text, x.toNat ≠ 0) : lineOf cv valid s = l := by
  obtain ⟨ty, g, r, cs⟩ := l
  cases s with
  | cells cs gs =>
    obtain ⟨h1, h2, h3, h4⟩ := h
    rw [lineOf, graph_fold, cells_eq h2 h0]
    simp_all
  | title c gs =>
    obtain ⟨h1, h2, h3, h4⟩ := h
    rw [lineOf, graph_fold, ← List.map_singleton, cells_eq h2 h0]
    simp_all
  | plain k gs =>
    obtain ⟨h1, h2, h3, h4⟩ := h
    rw [lineOf, graph_fold]
    simp_all

theorem lines_eq {cv : Conv} {valid : Yy.Text → Bool} {ss : List SLine} {ls : List TLine} (h : List.Forall₂ (LineMeans cv valid) ss ls)
    (h0 : ∀ s ∈ ss, ∀ c ∈ cellsOf (.line s), ∀ x ∈ c.text, x.toNat ≠ 0) : ss.map (lineOf cv valid) = ls := by
  induction h with
  | nil => rfl
  | @cons s l ss ls h _ ih =>
    rw [List.map_cons, line_eq h (h0 s (by simp)), ih fun s hs => h0 s (by simp [hs])]

theorem wraps_char {n : Nat} {v : Int} (h : Wraps n v) : toChar8 n = v := by
  obtain ⟨h1, h2, h3⟩ := h
  unfold toChar8
  omega

theorem set_eq {o : Option Nat} {v : Int} (h : SetMeans o v) : (o.map fun n => toChar8 (n : Nat)).getD 0 = v := by
  rcases h with ⟨rfl, rfl⟩ | ⟨n, rfl, h⟩
  · rfl
  · exact wraps_char h

theorem bound_eq {o : Option (Option Rat)} {v : Dbl} (h : BoundMeans o v) : (o.map boundVal).getD (toFloat na) = v := by
  rcases h with ⟨q, rfl, rfl⟩ | ⟨rfl | rfl, rfl⟩ <;> rfl

theorem last_mem {α : Type} {f : SEntry → Option α} {es : List SEntry} {a : α} (h : lastE f es = some a) : ∃ e ∈ es, f e = some a :=
  List.mem_filterMap.1 (List.mem_of_getLast? h)

theorem def_ok {cv : Conv} {d : TDef} (hw : d.Wf) (ha : ∀ e ∈ d.entries, Accepted cv e)
    (h0 : ∀ e ∈ d.entries, ∀ c ∈ cellsOf e, ∀ x ∈ c.text, x.toNat ≠ 0) : DefOk cv d := by
  refine ⟨hw, fun e he => ?_⟩
  have h1 := hw.fits e he
  have h2 := ha e he
  have h3 := h0 e he
  have h4 := hw.cols.1
  cases e with
  | div cs => exact ⟨fun c hc => cell_ok (h2 c hc) (h3 c hc), congrArg Int.ofNat h1⟩
  | line l =>
    cases l with
    | cells cs gs =>
      refine ⟨fun c hc => cell_ok (h2 c hc) (h3 c hc), congrArg Int.ofNat h1, ?_⟩
      rintro rfl
      have : (0 : Nat) = d.cols := h1
      omega
    | title c gs => exact ⟨cell_ok h2 (h3 c (by simp [cellsOf])), h1⟩
    | plain k gs => trivial
  | _ => trivial

theorem means_eq {cv : Conv} {valid : Yy.Text → Bool} {d : TDef} {t : Tab} (hw : d.Wf) (h : Means cv valid d t)
    (h0 : ∀ e ∈ d.entries, ∀ c ∈ cellsOf e, ∀ x ∈ c.text, x.toNat ≠ 0) : tabOf cv valid d = t := by
  obtain ⟨f1, f2, f3, f4, f5, f6, f7, f8, f9, f10, f11, f12, f13, f14, f15⟩ := tab_fields (cv := cv) (valid := valid) d.entries d.cols
  obtain ⟨f16, _⟩ := tab_divider (cv := cv) (valid := valid) hw.cols.1 (es := d.entries) fun e he cs e' => by
    have := hw.fits e he
    rw [e'] at this
    exact this
  have g1 := f1.trans h.language.symm
  have g2 := f2.trans (set_eq h.gridx)
  have g3 := f3.trans (set_eq h.gridy)
  have g4 := f4.trans (set_eq h.axis)
  have g5 := f5.trans (set_eq h.box)
  have g6 := f6.trans h.align.symm
  have g7 := f7.trans (bound_eq h.ymin)
  have g8 := f8.trans (bound_eq h.ymax)
  have g9 := f9.trans (bound_eq h.zmin)
  have g10 := f10.trans (bound_eq h.zmax)
  have g11 := f11.trans (lines_eq h.lines fun s hs => by
    obtain ⟨e, he, e1⟩ := List.mem_filterMap.1 hs
    cases e with
    | line l => cases e1; exact h0 _ he
    | _ => cases e1)
  have g12 := f12.trans ((toShort_small hw.cols.2).trans h.ncols.symm)
  have g16 : (d.entries.foldl (applyEntry cv valid) (newTab valid d.cols)).divider = t.divider := by
    rw [f16]
    rcases h.divider with ⟨e1, e2⟩ | ⟨cs, e1, e2⟩
    · rw [e1, e2]
      rfl
    · rw [e1]
      obtain ⟨e, he, e3⟩ := last_mem e1
      cases e with
      | div cs' =>
        cases e3
        exact cells_eq e2 (h0 _ he)
      | _ => cases e3
  unfold tabOf
  generalize d.entries.foldl (applyEntry cv valid) (newTab valid d.cols) = t' at *
  obtain ⟨r1, r2, r3⟩ := h.rest
  rw [← r1] at f13
  rw [← r2] at f14
  rw [← r3] at f15
  clear h r1 r2 r3
  cases t
  cases t'
  simp only at *
  simp_all

theorem put_tbls {cv : Conv} {valid : Yy.Text → Bool} {defs : List TDef} {ts : List Tab}
    (h : List.Forall₂ (fun d t => tabOf cv valid d = t) defs ts) (db : SMap Tab) :
    putTbls cv valid defs db = ((defs.map TDef.name).zip ts).foldl (fun db e => SMap.insert (keyOf true e.1) e.2 db) db := by
  induction h generalizing db with
  | nil => rfl
  | @cons d t ds ts h _ ih =>
    rw [putTbls, List.foldl_cons, List.map_cons, List.zip_cons_cons, List.foldl_cons, h]
    exact ih _

theorem laid_clean {defs : List TDef} {x : Yy.Text} (h : TblsLaid defs x) (hc : Clean x) :
    ∀ d ∈ defs, ∀ e ∈ d.entries, ∀ c ∈ cellsOf e, ∀ x ∈ c.text, x.toNat ≠ 0 := by
  intro d hd e he c hcc
  refine toks_clean h hc c.text (List.mem_flatMap.2 ⟨d, hd, ?_⟩)
  refine List.mem_cons_of_mem _ (List.mem_cons_of_mem _ (List.mem_append_right _ (List.mem_append_left _ ?_)))
  exact List.mem_flatMap.2 ⟨e, he, cells_tok hcc⟩

theorem defs_eq {cv : Conv} {valid : Yy.Text → Bool} {defs : List TDef} {ts : List Tab} (hw : ∀ d ∈ defs, d.Wf)
    (h0 : ∀ d ∈ defs, ∀ e ∈ d.entries, ∀ c ∈ cellsOf e, ∀ x ∈ c.text, x.toNat ≠ 0) (hm : List.Forall₂ (Means cv valid) defs ts) :
    List.Forall₂ (fun d t => tabOf cv valid d = t) defs ts := by
  induction hm with
  | nil => exact .nil
  | @cons d t ds ts h _ ih =>
    exact .cons (means_eq (hw d (by simp)) h (h0 d (by simp))) (ih (fun d hd => hw d (by simp [hd])) fun d hd => h0 d (by simp [hd]))

/-- Every text of tables is read as it is meant: each name stands for its last definition. -/
theorem C52_load {cv : Conv} {valid : Yy.Text → Bool} {defs : List TDef} {ts : List Tab} {t : Yy.Text}
    (h : TblsLaid defs (t.filter kept)) (h0 : ∀ c ∈ t, c.toNat ≠ 0) (hw : ∀ d ∈ defs, d.Wf)
    (ha : ∀ d ∈ defs, ∀ e ∈ d.entries, Accepted cv e) (hm : List.Forall₂ (Means cv valid) defs ts) :
    ∃ db, loadTbls cv valid t = .ok (.good (), db) ∧ SMap.Sorted db ∧
      ∀ k, SMap.find k db = lastDef true ((defs.map TDef.name).zip ts) k := by
  have hc := clean_kept h0
  have hl := toks_expand h hc 0
  rw [← Lec.expand_kept] at hl
  have hcl := laid_clean h hc
  rw [loadTbls_ok (fun d hd => def_ok (hw d hd) (ha d hd) (hcl d hd)) hl, put_tbls (defs_eq hw hcl hm)]
  exact ⟨_, rfl, fold_sorted _ _, fold_find _ _⟩

theorem laid_clean_then {defs : List TDef} {rest : List TTok} {x : Yy.Text} (h : Toks (defs.flatMap TDef.toks ++ rest) x) (hc : Clean x) :
    ∀ d ∈ defs, ∀ e ∈ d.entries, ∀ c ∈ cellsOf e, ∀ x ∈ c.text, x.toNat ≠ 0 := by
  intro d hd e he c hcc
  refine toks_clean h hc c.text (List.mem_append_left _ (List.mem_flatMap.2 ⟨d, hd, ?_⟩))
  refine List.mem_cons_of_mem _ (List.mem_cons_of_mem _ (List.mem_append_right _ (List.mem_append_left _ ?_)))
  exact List.mem_flatMap.2 ⟨e, he, cells_tok hcc⟩

/-- When a name is not followed by a table, loading fails, but the tables before it are loaded. -/
theorem C52_failed {cv : Conv} {valid : Yy.Text → Bool} {defs : List TDef} {ts : List Tab} {t w : Yy.Text} {rest : List TTok}
    (h : Toks (defs.flatMap TDef.toks ++ .word w :: rest) (t.filter kept)) (hw' : TblName w)
    (hr : ∀ t, rest.head? = some t → t ≠ .sign '{' ∧ ∀ v, t = .word v → TblName v) (h0 : ∀ c ∈ t, c.toNat ≠ 0) (hw : ∀ d ∈ defs, d.Wf)
    (ha : ∀ d ∈ defs, ∀ e ∈ d.entries, Accepted cv e) (hm : List.Forall₂ (Means cv valid) defs ts) :
    ∃ db, loadTbls cv valid t = .ok (.bad, db) ∧ SMap.Sorted db ∧
      ∀ k, SMap.find k db = lastDef true ((defs.map TDef.name).zip ts) k := by
  have hc := clean_kept h0
  have hl := toks_expand h hc 0
  rw [← Lec.expand_kept] at hl
  have hcl := laid_clean_then h hc
  rw [loadTbls_stop (fun d hd => def_ok (hw d hd) (ha d hd) (hcl d hd)) hw' hr hl, put_tbls (defs_eq hw hcl hm)]
  exact ⟨_, rfl, fold_sorted _ _, fold_find _ _⟩

/-! ## Saving -/

/-- The cells that can be written and read again. -/
def CellSaved (cv : Conv) (c : TCell) : Prop :=
  content c = [] ∨ ∃ o u, Prints cv c o ∧ Decoded cv o u ∧ (isLec c = false → u ≠ ['"'])

/-- What is left of a cell: an empty one becomes an empty text; quotes at the ends of a text are lost; a formula that does not
    compile is lost; the alignment and the fonts are kept. -/
def CellRestored (cv : Conv) (valid : Yy.Text → Bool) (c r : TCell) : Prop :=
  (content c = [] ∧ r = ⟨.str [], 16⟩) ∨
  (content c ≠ [] ∧ ∃ o u, Coded cv (content c) o ∧ Decoded cv o u ∧
    ((isLec c = true ∧ r = ⟨.lec (if u = [] then none else some (if valid u then u else [])), attrBack 64 c.attr⟩) ∨
     (isLec c = false ∧ ∃ v, Stripped u v ∧ r = ⟨.str v, attrBack (if '#' ∈ u then 8 else 16) c.attr⟩)))

/-- The lines that can be written and read again: a title is a text, other lines have a cell for each column. -/
def LineSaved (cv : Conv) (ncols : Int) (l : TLine) : Prop :=
  (l.type = 110 ∧ (l.cells.length : Int) = ncols ∧ ∀ c ∈ l.cells, CellSaved cv c) ∨
  (l.type = 113 ∧ ∃ c rest, l.cells = c :: rest ∧ CellSaved cv c ∧ (isLec c = true → content c = [])) ∨
  l.type = 111 ∨ l.type = 106 ∨ l.type = 116 ∨ l.type = 105

/-- What is left of a line: the axis and the graph only of a line with cells, where all that are not bars are lines. -/
def LineRestored (cv : Conv) (valid : Yy.Text → Bool) (l r : TLine) : Prop :=
  r.type = l.type ∧
  ((l.type = 110 ∧ List.Forall₂ (CellRestored cv valid) l.cells r.cells ∧ r.right = l.right ∧ r.graph = if l.graph = 2 then 2 else 0) ∨
   (l.type = 113 ∧ (∃ c rest c', l.cells = c :: rest ∧ r.cells = [c'] ∧ CellRestored cv valid c c') ∧ r.right = false ∧ r.graph = 0) ∨
   (l.type ≠ 110 ∧ l.type ≠ 113 ∧ r.cells = [] ∧ r.right = false ∧ r.graph = 0))

/-- A setting that is written and read again. -/
def Byte (n : Int) : Prop := 0 ≤ n ∧ n ≤ 127

/-- The tables that can be written and read again. -/
structure Saved (cv : Conv) (t : Tab) : Prop where
  ncols : 1 ≤ t.ncols ∧ t.ncols < 2 ^ 15
  language : t.language = 100 ∨ t.language = 101 ∨ t.language = 102
  align : t.align = 0 ∨ t.align = 1 ∨ t.align = 2
  box : Byte t.box
  axis : Byte t.axis
  gridx : Byte t.gridx
  gridy : Byte t.gridy
  ymin : BoundOk t.ymin
  ymax : BoundOk t.ymax
  zmin : BoundOk t.zmin
  zmax : BoundOk t.zmax
  divider : (t.divider.length : Int) = t.ncols ∧ ∀ c ∈ t.divider, CellSaved cv c
  lines : ∀ l ∈ t.lines, LineSaved cv t.ncols l

/-- What is left of a table. -/
structure Restored (cv : Conv) (valid : Yy.Text → Bool) (t r : Tab) : Prop where
  ncols : r.ncols = t.ncols
  language : r.language = t.language
  align : r.align = t.align
  box : r.box = t.box
  axis : r.axis = t.axis
  gridx : r.gridx = t.gridx
  gridy : r.gridy = t.gridy
  ymin : RestoredB isNumber (toFloat na) t.ymin r.ymin
  ymax : RestoredB isNumber (toFloat na) t.ymax r.ymax
  zmin : RestoredB isNumber (toFloat na) t.zmin r.zmin
  zmax : RestoredB isNumber (toFloat na) t.zmax r.zmax
  divider : List.Forall₂ (CellRestored cv valid) t.divider r.divider
  lines : List.Forall₂ (LineRestored cv valid) t.lines r.lines
  rest : r.repeatCols = 0 ∧ r.attr = 0 ∧ r.shadow = 0

/-- The bound that is read, to the last digit. -/
def againB (v : Dbl) : Dbl :=
  match v with
  | .num q => if isNumber v then toFloat (ieee (dec6 q)) else toFloat na
  | _ => toFloat na

def Sharp (t r : Tab) : Prop :=
  r.ymin = againB t.ymin ∧ r.ymax = againB t.ymax ∧ r.zmin = againB t.zmin ∧ r.zmax = againB t.zmax

/-! ### Bounds -/

set_option exponentiation.threshold 2000 in
theorem again_num {q : Rat} (h : Single q) :
    toFloat (ieee (dec6 q)) = .num (roundF (roundD (dec6 q))) ∧ |roundF (roundD (dec6 q))| < (2 : Rat) ^ 128 := by
  have h6 := dec6_near q
  have hr : |dec6 q| ≤ |q| + 1 := by
    have h1 := h6.2
    have h2 := abs_sub_abs_le_abs_sub (dec6 q) q
    rw [abs_sub_comm] at h2
    norm_num at h1
    linarith
  have hlt : |roundF (roundD (dec6 q))| < (2 : Rat) ^ 128 := by
    by_cases hq : 16 ≤ |q|
    · rw [back_large h.1 hq h6]
      exact h.2
    · have hB : Binary ((2 : Rat) ^ (5 : Int)) := ⟨1, 5, by norm_num, by norm_num, by norm_num⟩
      have hF : BinaryF ((2 : Rat) ^ (5 : Int)) := ⟨1, 5, by norm_num, by norm_num, by norm_num⟩
      have hs : |dec6 q| ≤ (2 : Rat) ^ (5 : Int) := by norm_num; linarith
      rw [abs_le] at hs
      have x1 := near_le' (roundD_nearest (dec6 q)).2 hB hs.2
      have x2 := near_ge' (roundD_nearest (dec6 q)).2 (binary_neg hB) hs.1
      have y1 := near_le' (roundF_nearest (roundD (dec6 q))).2 hF x1
      have y2 := near_ge' (roundF_nearest (roundD (dec6 q))).2 (binaryF_neg hF) x2
      rw [abs_lt]
      constructor
      · have : -(2 : Rat) ^ 128 < -(2 : Rat) ^ (5 : Int) := by norm_num
        linarith
      · have : (2 : Rat) ^ (5 : Int) < (2 : Rat) ^ 128 := by norm_num
        linarith
  have h308 : |dec6 q| ≤ (10 : Rat) ^ (308 : Int) := by
    have h1 : (2 : Rat) ^ 128 + 1 ≤ (10 : Rat) ^ (308 : Int) := by
      exact_mod_cast (by norm_num : (2 : Nat) ^ 128 + 1 ≤ 10 ^ 308)
    have := h.2
    linarith
  refine ⟨?_, hlt⟩
  rw [abs_lt] at hlt
  rw [ieee_small h308, toFloat, if_neg (by linarith), if_neg (by linarith)]

theorem again_bound {v : Dbl} (h : BoundOk v) : RestoredB isNumber (toFloat na) v (againB v) := by
  by_cases hn : isNumber v = true
  · rcases h with h | ⟨q, rfl, hq⟩
    · rw [hn] at h; cases h
    · refine .inr ⟨hn, q, dec6 q, roundD (dec6 q), roundF (roundD (dec6 q)), rfl, ?_, dec6_near q, roundD_nearest _, roundF_nearest _⟩
      simp only [againB, hn, if_true]
      exact (again_num hq).1
  · refine .inl ⟨by simpa using hn, ?_⟩
    unfold againB
    cases v with
    | num q => simp only [hn]; rfl
    | _ => rfl

/-! ### Cells and lines -/

theorem cell_saved {cv : Conv} {valid : Yy.Text → Bool} {c : TCell} (h : CellSaved cv c) :
    ∃ x s r, printCell cv c = some x ∧ Piece (SCell.toks s) x ∧ CellAccepted cv s ∧ CellMeans cv valid s r ∧ CellRestored cv valid c r ∧
      (s.formula = true → isLec c = true ∧ content c ≠ []) := by
  by_cases he : content c = []
  · refine ⟨_, ⟨false, [], []⟩, ⟨.str [], 16⟩, print_empty he, piece_empty, ⟨[], .inl ⟨rfl, rfl⟩, by simp⟩,
      ⟨[], .inl ⟨rfl, rfl⟩, .inr ⟨rfl, by simp, [], ⟨[], [], rfl, .inr ⟨rfl, by simp⟩, .inr ⟨rfl, by simp⟩⟩, rfl⟩⟩, .inl ⟨he, rfl⟩, by simp⟩
  · rcases h with h | ⟨o, u, h1, h2, h3⟩
    · exact absurd h he
    · obtain ⟨x, k1, k2⟩ := piece_cell h1 he
      cases hl : isLec c with
      | true =>
        rw [hl] at k2
        refine ⟨x, _, _, k1, k2, ⟨u, h2, by simp⟩, ⟨u, h2, .inl ⟨rfl, rfl⟩⟩, .inr ⟨he, o, u, h1.coded, h2, .inl ⟨hl, ?_⟩⟩, ?_⟩
        · rw [form_marks]
        · exact fun _ => ⟨rfl, he⟩
      | false =>
        rw [hl] at k2
        have hs : Stripped u (bare u) := by
          have hq := h3 hl
          unfold Stripped bare
          by_cases hh : u.head? = some '"'
          · cases u with
            | nil => cases hh
            | cons a t =>
              cases hh
              simp only [List.head?_cons, if_true, List.tail_cons]
              by_cases hg : t.getLast? = some '"'
              · rw [if_pos hg]
                refine ⟨['"'], ['"'], ?_, .inl rfl, .inl rfl⟩
                have := List.dropLast_append_getLast? '"' hg
                rw [this]
                rfl
              · rw [if_neg hg]
                exact ⟨['"'], [], by simp, .inl rfl, .inr ⟨rfl, hg⟩⟩
          · rw [if_neg hh]
            by_cases hg : u.getLast? = some '"'
            · rw [if_pos hg]
              refine ⟨[], ['"'], ?_, .inr ⟨rfl, hh⟩, .inl rfl⟩
              have := List.dropLast_append_getLast? '"' hg
              rw [this]
              rfl
            · rw [if_neg hg]
              exact ⟨[], [], by simp, .inr ⟨rfl, hh⟩, .inr ⟨rfl, hg⟩⟩
        refine ⟨x, _, _, k1, k2, ⟨u, h2, fun _ => h3 hl⟩, ⟨u, h2, .inr ⟨rfl, h3 hl, bare u, hs, rfl⟩⟩,
          .inr ⟨he, o, u, h1.coded, h2, .inr ⟨hl, bare u, hs, ?_⟩⟩, by simp⟩
        rw [form_marks]

theorem cells_saved {cv : Conv} {valid : Yy.Text → Bool} {cs : List TCell} (h : ∀ c ∈ cs, CellSaved cv c) :
    ∃ ss rs, Pieces (ss.flatMap SCell.toks) (cs.map (printCell cv)) ∧ ss.length = cs.length ∧ (∀ s ∈ ss, CellAccepted cv s) ∧
      List.Forall₂ (CellMeans cv valid) ss rs ∧ List.Forall₂ (CellRestored cv valid) cs rs := by
  induction cs with
  | nil => exact ⟨[], [], pieces_nil, rfl, by simp, .nil, .nil⟩
  | cons c cs ih =>
    obtain ⟨ss, rs, h1, h2, h3, h4, h5⟩ := ih fun c hc => h c (by simp [hc])
    obtain ⟨x, s, r, k1, k2, k3, k4, k5, _⟩ := cell_saved (valid := valid) (h c (by simp))
    refine ⟨s :: ss, r :: rs, ?_, by simp [h2], List.forall_mem_cons.2 ⟨k3, h3⟩, .cons k4 h4, .cons k5 h5⟩
    rw [List.map_cons, k1, List.flatMap_cons]
    exact .cons k2 h1

theorem graph_two (right : Bool) (g : Nat) :
    graphOf [if right then .raxis else .laxis, if g = 2 then .bar else .line] = (if g = 2 then 2 else 0) ∧
      rightOf [if right then .raxis else .laxis, if g = 2 then .bar else .line] = right := by
  by_cases hg : g = 2
  · rw [if_pos hg, if_pos hg]
    cases right <;> decide
  · rw [if_neg hg, if_neg hg]
    cases right <;> decide

theorem line_saved {cv : Conv} {valid : Yy.Text → Bool} {n : Nat} {l : TLine} (h : LineSaved cv n l) :
    ∃ ps s r, printLine cv l = .ok ps ∧ Pieces (SEntry.line s).toks ps ∧ (SEntry.line s).Fits n ∧ Accepted cv (.line s) ∧
      LineMeans cv valid s r ∧ LineRestored cv valid l r := by
  rcases h with ⟨ht, hn, hc⟩ | ⟨ht, c, rest, hcs, hc, hlec⟩ | ht
  · obtain ⟨ss, rs, h1, h2, h3, h4, h5⟩ := cells_saved (valid := valid) hc
    refine ⟨some ['\n', '-', ' '] :: (l.cells.map (printCell cv) ++ [some (printGraph l.right l.graph)]), .cells ss [if l.right then .raxis else .laxis, if l.graph = 2 then .bar else .line],
      ⟨110, if l.graph = 2 then 2 else 0, l.right, rs⟩, ?_, ?_, ?_, h3, ⟨rfl, h4, ?_, ?_⟩, ⟨ht.symm, .inl ⟨ht, h5, rfl, rfl⟩⟩⟩
    · rw [printLine, if_pos ht]
    · exact Pieces.cons piece_break (h1.append (pieces_one (piece_graph l.right l.graph)))
    · change ss.length = n
      omega
    · exact (graph_two l.right l.graph).1.symm
    · exact (graph_two l.right l.graph).2.symm
  · obtain ⟨x, s, r, k1, k2, k3, k4, k5, k6⟩ := cell_saved (valid := valid) hc
    obtain ⟨w, w1, w2⟩ := wrDef_word (d := 113) (s := "TITLE") (by decide +kernel) (by decide +kernel)
    refine ⟨[some ['\n', '-', ' '], some w, some x], .title s [], ⟨113, 0, false, [r]⟩, ?_, ?_, ?_, k3, ⟨rfl, .cons k4 .nil, rfl, rfl⟩,
      ⟨ht.symm, .inr (.inl ⟨ht, ⟨c, rest, r, hcs, rfl, k5⟩, rfl, rfl⟩)⟩⟩
    · rw [printLine, if_neg (by omega), if_pos ht, hcs, ht, w1]
      simp only [Res.bind, k1]
    · have := Pieces.cons piece_break (Pieces.cons w2 (pieces_one k2))
      simpa [SEntry.toks, SLine.toks, gtoks] using this
    · change s.formula = false
      cases hs : s.formula with
      | false => rfl
      | true =>
        obtain ⟨h1, h2⟩ := k6 hs
        exact absurd (hlec h1) h2
  · have key : ∀ k : Plain, l.type = k.code → ∃ w, wrDef l.type = .ok w ∧ Piece [kw k.name] w := by
      intro k hk
      rw [hk]
      cases k with
      | sep => exact wrDef_word (s := "LINE") (by decide +kernel) (by decide +kernel)
      | mode => exact wrDef_word (s := "MODE") (by decide +kernel) (by decide +kernel)
      | date => exact wrDef_word (s := "DATE") (by decide +kernel) (by decide +kernel)
      | files => exact wrDef_word (s := "FILES") (by decide +kernel) (by decide +kernel)
    obtain ⟨k, hk⟩ : ∃ k : Plain, l.type = k.code := by
      rcases ht with h | h | h | h
      · exact ⟨.sep, h⟩
      · exact ⟨.mode, h⟩
      · exact ⟨.date, h⟩
      · exact ⟨.files, h⟩
    obtain ⟨w, w1, w2⟩ := key k hk
    refine ⟨[some ['\n', '-', ' '], some w], .plain k [], ⟨k.code, 0, false, []⟩, ?_, ?_, trivial, trivial, ⟨rfl, rfl, rfl, rfl⟩,
      ⟨hk.symm, .inr (.inr ⟨by omega, by omega, rfl, rfl, rfl⟩)⟩⟩
    · rw [printLine, if_neg (by omega), if_neg (by omega), if_pos (by omega), w1]
      rfl
    · have := Pieces.cons piece_break (pieces_one w2)
      simpa [SEntry.toks, SLine.toks, gtoks] using this

theorem lines_saved {cv : Conv} {valid : Yy.Text → Bool} {n : Nat} {ls : List TLine} (h : ∀ l ∈ ls, LineSaved cv n l) :
    ∃ ps ss rs, printLines cv ls = .ok ps ∧ Pieces ((ss.map SEntry.line).flatMap SEntry.toks) ps ∧ (∀ s ∈ ss, (SEntry.line s).Fits n) ∧
      (∀ s ∈ ss, Accepted cv (.line s)) ∧ List.Forall₂ (LineMeans cv valid) ss rs ∧ List.Forall₂ (LineRestored cv valid) ls rs := by
  induction ls with
  | nil => exact ⟨[], [], [], rfl, pieces_nil, by simp, by simp, .nil, .nil⟩
  | cons l ls ih =>
    obtain ⟨ps, ss, rs, h1, h2, h3, h4, h5, h6⟩ := ih fun l hl => h l (by simp [hl])
    obtain ⟨qs, s, r, k1, k2, k3, k4, k5, k6⟩ := line_saved (valid := valid) (h l (by simp))
    refine ⟨qs ++ ps, s :: ss, r :: rs, ?_, ?_, List.forall_mem_cons.2 ⟨k3, h3⟩, List.forall_mem_cons.2 ⟨k4, h4⟩, .cons k5 h5, .cons k6 h6⟩
    · rw [printLines, k1]
      simp only [Res.bind]
      rw [h1]
    · rw [List.map_cons, List.flatMap_cons]
      exact k2.append h2

/-! ### Tables -/

theorem bound_other {α : Type} {f : SEntry → Option α} {b : Bound} (hf : ∀ neg r, f (.bound b neg r) = none) (v : Dbl) :
    (boundEntry b v).filterMap f = [] := by
  unfold boundEntry
  cases v with
  | num q =>
    dsimp only
    split
    · simp [hf]
    · rfl
  | _ => rfl

theorem bound_same (b : Bound) {v : Dbl} (h : BoundOk v) : BoundMeans ((boundEntry b v).filterMap (SEntry.bound? b)).getLast? (againB v) := by
  unfold boundEntry againB
  cases v with
  | num q =>
    dsimp only
    by_cases hn : isNumber (.num q) = true
    · rw [if_pos hn, if_pos hn]
      refine .inl ⟨dec6 q, ?_, rfl⟩
      simp only [List.filterMap_cons, List.filterMap_nil, SEntry.bound?, if_true, List.getLast?_singleton]
      simp only [decide_eq_true_eq, dec6_sign]
    · rw [if_neg hn, if_neg hn]
      exact .inr ⟨.inl rfl, rfl⟩
  | _ => exact .inr ⟨.inl rfl, rfl⟩

theorem lines_other {α : Type} {f : SEntry → Option α} (hf : ∀ l, f (.line l) = none) (ss : List SLine) :
    (ss.map SEntry.line).filterMap f = [] := by
  simp [List.filterMap_map, Function.comp_def, hf]

theorem lines_same (ss : List SLine) : (ss.map SEntry.line).filterMap SEntry.line? = ss := by
  simp [List.filterMap_map, Function.comp_def, SEntry.line?]

/-- The entries of a table that is written. -/
def entriesOf (t : Tab) (l : Lang) (b a x y : Nat) (s : Side) (cs : List SCell) (ss : List SLine) : List SEntry :=
  .lang l :: ([.set .box b, .set .axis a, .set .xgrid x, .set .ygrid y] ++ (.align s :: (boundEntry .ymin t.ymin ++ (boundEntry .ymax t.ymax ++
    (boundEntry .zmin t.zmin ++ (boundEntry .zmax t.zmax ++ (.div cs :: ss.map SEntry.line)))))))

theorem pieces_saved {ts us : List TTok} {ps : List (Option Yy.Text)} {y : Res (Bool × Yy.Text)} (h : Pieces us ps) (e : us = ts)
    (hy : y = .ok (written ps)) : ∃ x, y = .ok (true, x) ∧ Piece ts x := by
  obtain ⟨h1, h2⟩ := written_pieces h
  refine ⟨(written ps).2, ?_, e ▸ h2⟩
  rw [hy, ← h1]

theorem tab_saved {cv : Conv} (valid : Yy.Text → Bool) {k : Yy.Text} (hk : TblName k) {t : Tab} (h : Saved cv t) :
    ∃ x d r, saveTbl cv k t = .ok (true, x) ∧ Piece d.toks x ∧ d.name = k ∧ d.Wf ∧ (∀ e ∈ d.entries, Accepted cv e) ∧ Means cv valid d r ∧
      Restored cv valid t r ∧ Sharp t r := by
  obtain ⟨n, hn⟩ : ∃ n : Nat, t.ncols = n := ⟨t.ncols.toNat, by have := h.ncols; omega⟩
  obtain ⟨b, hb⟩ : ∃ n : Nat, t.box = n := ⟨t.box.toNat, by have := h.box.1; omega⟩
  obtain ⟨a, ha⟩ : ∃ n : Nat, t.axis = n := ⟨t.axis.toNat, by have := h.axis.1; omega⟩
  obtain ⟨gx, hx⟩ : ∃ n : Nat, t.gridx = n := ⟨t.gridx.toNat, by have := h.gridx.1; omega⟩
  obtain ⟨gy, hy⟩ : ∃ n : Nat, t.gridy = n := ⟨t.gridy.toNat, by have := h.gridy.1; omega⟩
  obtain ⟨l, hl⟩ : ∃ l : Lang, t.language = l.code := by
    rcases h.language with e | e | e
    · exact ⟨.english, e⟩
    · exact ⟨.dutch, e⟩
    · exact ⟨.french, e⟩
  obtain ⟨s, hs⟩ : ∃ s : Side, s.code = t.align := by
    rcases h.align with e | e | e
    · exact ⟨.left, e.symm⟩
    · exact ⟨.center, e.symm⟩
    · exact ⟨.right, e.symm⟩
  obtain ⟨cs, rs, c1, c2, c3, c4, c5⟩ := cells_saved (valid := valid) h.divider.2
  obtain ⟨ps, ss, ls, l1, l2, l3, l4, l5, l6⟩ := lines_saved (cv := cv) (valid := valid) (n := n) (ls := t.lines) (by rw [← hn]; exact h.lines)
  obtain ⟨w, w1, w2⟩ := piece_lang l
  have hlen : t.divider.length = n := by have := h.divider.1; omega
  have bbox := h.box
  have baxis := h.axis
  have bgx := h.gridx
  have bgy := h.gridy
  have hncols := h.ncols
  simp only [Byte] at bbox baxis bgx bgy
  have hname : Piece [.word k, .sign '{'] (k ++ [' ', '{']) := by
    have := (piece_word hk.ne hk.head hk.all (c := ' ') (.inl rfl)).append (piece_sign (c := '{') (.inr (.inl rfl)))
    simpa using this
  have hclose : Piece [.sign '}'] ['}', '\n'] := (piece_sign (c := '}') (.inr (.inr rfl))).append piece_line
  have hdiv : Piece [kw "DIV"] ['\n', 'D', 'I', 'V', ' '] :=
    piece_line.append (piece_kw (s := "DIV") (x := ['D', 'I', 'V', ' ']) (by decide) (by decide +kernel))
  have hp := Pieces.cons hname (Pieces.cons (piece_dim n (by omega)) (Pieces.cons w2 (Pieces.cons
    (piece_settings b a gx gy (by omega) (by omega) (by omega) (by omega)) (Pieces.cons (piece_align hs)
    (Pieces.cons (piece_bound (b := .ymin) (key := ['Y', 'M', 'I', 'N']) (by decide) h.ymin)
    (Pieces.cons (piece_bound (b := .ymax) (key := ['Y', 'M', 'A', 'X']) (by decide) h.ymax)
    (Pieces.cons (piece_bound (b := .zmin) (key := ['Z', 'M', 'I', 'N']) (by decide) h.zmin)
    (Pieces.cons (piece_bound (b := .zmax) (key := ['Z', 'M', 'A', 'X']) (by decide) h.zmax)
    (Pieces.cons hdiv (c1.append (l2.append (Pieces.cons piece_end (pieces_one hclose))))))))))))) 
  rw [← hb, ← ha, ← hx, ← hy, ← hn] at hp
  have hm : Means cv valid ⟨k, some n, entriesOf t l b a gx gy s cs ss⟩
      { language := t.language, gridx := t.gridx, gridy := t.gridy, axis := t.axis, align := t.align, ncols := t.ncols, repeatCols := 0,
        divider := rs, lines := ls, zmin := againB t.zmin, zmax := againB t.zmax, ymin := againB t.ymin, ymax := againB t.ymax,
        attr := 0, box := t.box, shadow := 0 } := by
    have o : ∀ (v : Dbl) {α : Type} {f : SEntry → Option α} (b : Bound), (∀ neg r, f (.bound b neg r) = none) → (boundEntry b v).filterMap f = [] :=
      fun v _ _ b hf => bound_other hf v
    have ow : ∀ {n : Nat} {v : Int}, Byte v → v = n → SetMeans (some n) v := by
      rintro n v ⟨h1, h2⟩ rfl
      exact .inr ⟨n, rfl, by omega, h2, by simp⟩
    constructor
    · exact hn
    · simp only [lastE, entriesOf, List.filterMap_cons, List.filterMap_append, List.filterMap_nil, SEntry.lang?, List.nil_append, List.append_nil, lines_other (f := SEntry.lang?) fun _ => rfl]
      rw [o _ .ymin fun _ _ => rfl, o _ .ymax fun _ _ => rfl, o _ .zmin fun _ _ => rfl, o _ .zmax fun _ _ => rfl]
      exact hl
    · simp only [lastE, entriesOf, List.filterMap_cons, List.filterMap_append, List.filterMap_nil, SEntry.align?, List.nil_append, List.append_nil, lines_other (f := SEntry.align?) fun _ => rfl]
      rw [o _ .ymin fun _ _ => rfl, o _ .ymax fun _ _ => rfl, o _ .zmin fun _ _ => rfl, o _ .zmax fun _ _ => rfl]
      exact hs.symm
    · refine cast (congrArg (fun x => SetMeans x _) ?_) (ow h.box hb)
      simp only [lastE, entriesOf, List.filterMap_cons, List.filterMap_append, List.filterMap_nil, SEntry.set?, List.nil_append, List.append_nil, lines_other (f := SEntry.set? .box) fun _ => rfl]
      rw [o _ .ymin fun _ _ => rfl, o _ .ymax fun _ _ => rfl, o _ .zmin fun _ _ => rfl, o _ .zmax fun _ _ => rfl]
      rfl
    · refine cast (congrArg (fun x => SetMeans x _) ?_) (ow h.axis ha)
      simp only [lastE, entriesOf, List.filterMap_cons, List.filterMap_append, List.filterMap_nil, SEntry.set?, List.nil_append, List.append_nil, lines_other (f := SEntry.set? .axis) fun _ => rfl]
      rw [o _ .ymin fun _ _ => rfl, o _ .ymax fun _ _ => rfl, o _ .zmin fun _ _ => rfl, o _ .zmax fun _ _ => rfl]
      rfl
    · refine cast (congrArg (fun x => SetMeans x _) ?_) (ow h.gridx hx)
      simp only [lastE, entriesOf, List.filterMap_cons, List.filterMap_append, List.filterMap_nil, SEntry.set?, List.nil_append, List.append_nil, lines_other (f := SEntry.set? .xgrid) fun _ => rfl]
      rw [o _ .ymin fun _ _ => rfl, o _ .ymax fun _ _ => rfl, o _ .zmin fun _ _ => rfl, o _ .zmax fun _ _ => rfl]
      rfl
    · refine cast (congrArg (fun x => SetMeans x _) ?_) (ow h.gridy hy)
      simp only [lastE, entriesOf, List.filterMap_cons, List.filterMap_append, List.filterMap_nil, SEntry.set?, List.nil_append, List.append_nil, lines_other (f := SEntry.set? .ygrid) fun _ => rfl]
      rw [o _ .ymin fun _ _ => rfl, o _ .ymax fun _ _ => rfl, o _ .zmin fun _ _ => rfl, o _ .zmax fun _ _ => rfl]
      rfl
    · refine cast (congrArg (fun x => BoundMeans x _) ?_) (bound_same .ymin h.ymin)
      simp only [lastE, entriesOf, List.filterMap_cons, List.filterMap_append, List.filterMap_nil, SEntry.bound?, List.nil_append, List.append_nil, lines_other (f := SEntry.bound? .ymin) fun _ => rfl]
      rw [o _ .ymax fun _ _ => rfl, o _ .zmin fun _ _ => rfl, o _ .zmax fun _ _ => rfl]
      simp
    · refine cast (congrArg (fun x => BoundMeans x _) ?_) (bound_same .ymax h.ymax)
      simp only [lastE, entriesOf, List.filterMap_cons, List.filterMap_append, List.filterMap_nil, SEntry.bound?, List.nil_append, List.append_nil, lines_other (f := SEntry.bound? .ymax) fun _ => rfl]
      rw [o _ .ymin fun _ _ => rfl, o _ .zmin fun _ _ => rfl, o _ .zmax fun _ _ => rfl]
      simp
    · refine cast (congrArg (fun x => BoundMeans x _) ?_) (bound_same .zmin h.zmin)
      simp only [lastE, entriesOf, List.filterMap_cons, List.filterMap_append, List.filterMap_nil, SEntry.bound?, List.nil_append, List.append_nil, lines_other (f := SEntry.bound? .zmin) fun _ => rfl]
      rw [o _ .ymax fun _ _ => rfl, o _ .ymin fun _ _ => rfl, o _ .zmax fun _ _ => rfl]
      simp
    · refine cast (congrArg (fun x => BoundMeans x _) ?_) (bound_same .zmax h.zmax)
      simp only [lastE, entriesOf, List.filterMap_cons, List.filterMap_append, List.filterMap_nil, SEntry.bound?, List.nil_append, List.append_nil, lines_other (f := SEntry.bound? .zmax) fun _ => rfl]
      rw [o _ .ymax fun _ _ => rfl, o _ .zmin fun _ _ => rfl, o _ .ymin fun _ _ => rfl]
      simp
    · refine .inr ⟨cs, ?_, c4⟩
      simp only [lastE, entriesOf, List.filterMap_cons, List.filterMap_append, List.filterMap_nil, SEntry.div?, List.nil_append, lines_other (f := SEntry.div?) fun _ => rfl]
      rw [o _ .ymin fun _ _ => rfl, o _ .ymax fun _ _ => rfl, o _ .zmin fun _ _ => rfl, o _ .zmax fun _ _ => rfl]
      rfl
    · refine cast (congrArg (fun x => List.Forall₂ (LineMeans cv valid) x _) ?_) l5
      simp only [entriesOf, List.filterMap_cons, List.filterMap_append, List.filterMap_nil, SEntry.line?, List.nil_append, lines_same]
      rw [o _ .ymin fun _ _ => rfl, o _ .ymax fun _ _ => rfl, o _ .zmin fun _ _ => rfl, o _ .zmax fun _ _ => rfl]
      rfl
    · exact ⟨rfl, rfl, rfl⟩
  obtain ⟨x, q1, q2⟩ : ∃ x, saveTbl cv k t = .ok (true, x) ∧ Piece (TDef.toks ⟨k, some n, entriesOf t l b a gx gy s cs ss⟩) x := by
    refine pieces_saved hp ?_ ?_
    · simp [TDef.toks, entriesOf, dimToks, SEntry.toks, List.flatMap_append]
    · rw [saveTbl, printTbl, if_neg (by omega), hl, w1]
      simp only [Res.bind]
      rw [l1]
      simp only [Res.bind]
      rw [List.take_of_length_le (by omega)]
      simp only [List.cons_append, List.append_assoc, List.nil_append]
  have hmem : ∀ P : SEntry → Prop, P (.lang l) → (∀ s n, P (.set s n)) → (∀ s, P (.align s)) → (∀ b neg r, P (.bound b neg r)) → P (.div cs) →
      (∀ s ∈ ss, P (.line s)) → ∀ e ∈ entriesOf t l b a gx gy s cs ss, P e := by
    intro P p1 p2 p3 p4 p5 p6 e he
    have pb : ∀ b v, ∀ e ∈ boundEntry b v, P e := by
      intro b v e he
      unfold boundEntry at he
      cases v with
      | num q =>
        dsimp only at he
        split at he
        · rw [List.mem_singleton.1 he]; exact p4 _ _ _
        · cases he
      | _ => cases he
    simp only [entriesOf, List.mem_cons, List.mem_append, List.mem_map, List.not_mem_nil, or_false] at he
    rcases he with rfl | (rfl | rfl | rfl | rfl) | rfl | he | he | he | he | rfl | ⟨s, hs, rfl⟩
    · exact p1
    · exact p2 _ _
    · exact p2 _ _
    · exact p2 _ _
    · exact p2 _ _
    · exact p3 _
    · exact pb _ _ _ he
    · exact pb _ _ _ he
    · exact pb _ _ _ he
    · exact pb _ _ _ he
    · exact p5
    · exact p6 s hs
  refine ⟨x, ⟨k, some n, entriesOf t l b a gx gy s cs ss⟩, _, q1, q2, rfl, ⟨hk, ?_, ?_⟩, ?_, hm, ?_, ⟨rfl, rfl, rfl, rfl⟩⟩
  · change 1 ≤ n ∧ n < 2 ^ 15
    omega
  · exact hmem (fun e => e.Fits n) trivial (fun _ _ => trivial) (fun _ => trivial) (fun _ _ _ => trivial) (c2.trans hlen) l3
  · exact hmem (Accepted cv) trivial (fun _ _ => trivial) (fun _ => trivial) (fun _ _ _ => trivial) c3 l4
  · exact ⟨rfl, rfl, rfl, rfl, rfl, rfl, rfl, again_bound h.ymin, again_bound h.ymax, again_bound h.zmin, again_bound h.zmax, c5, l6, rfl, rfl, rfl⟩

theorem saved_defs {cv : Conv} (valid : Yy.Text → Bool) {db : SMap Tab} (hn : ∀ e ∈ db, TblName e.1) (h : ∀ e ∈ db, Saved cv e.2) :
    ∃ x defs ts, saveTbls cv db = .ok (true, x) ∧ Clean x ∧ TblsLaid defs x ∧ (∀ d ∈ defs, d.Wf) ∧ (∀ d ∈ defs, ∀ e ∈ d.entries, Accepted cv e) ∧
      List.Forall₂ (Means cv valid) defs ts ∧ defs.map TDef.name = db.map (·.1) ∧
      List.Forall₂ (fun e t => Restored cv valid e.2 t ∧ Sharp e.2 t) db ts := by
  induction db with
  | nil => exact ⟨[], [], [], rfl, by simp [Lec.Clean], .nil .nil, by simp, by simp, .nil, rfl, .nil⟩
  | cons e db ih =>
    obtain ⟨x, defs, ts, j1, j2, j3, j4, j5, j6, j7, j8⟩ := ih (fun e he => hn e (by simp [he])) (fun e he => h e (by simp [he]))
    obtain ⟨y, d, r, k1, k2, k3, k4, k5, k6, k7, k8⟩ := tab_saved valid (hn e (by simp)) (h e (by simp))
    refine ⟨y ++ x, d :: defs, r :: ts, ?_, clean_append k2.clean j2, ?_, List.forall_mem_cons.2 ⟨k4, j4⟩, List.forall_mem_cons.2 ⟨k5, j5⟩,
      .cons k6 j6, ?_, .cons ⟨k7, k8⟩ j8⟩
    · rw [saveTbls, k1]
      simp only [Res.bind]
      rw [j1]
      rfl
    · unfold TblsLaid
      rw [List.flatMap_cons]
      exact k2.chunk _ _ j3
    · rw [List.map_cons, List.map_cons, k3, j7]

theorem fold_all {α : Type} {l : SMap α} (h : ∀ e ∈ l, keyOf true e.1 = e.1) (hs : SMap.Sorted l) :
    l.foldl (fun db e => SMap.insert (keyOf true e.1) e.2 db) [] = l := by
  have : ∀ (m acc : SMap α), (∀ e ∈ m, e ∈ l) →
      m.foldl (fun db e => SMap.insert (keyOf true e.1) e.2 db) acc = m.foldl (fun a e => SMap.insert e.1 e.2 a) acc := by
    intro m
    induction m with
    | nil => intro acc _; rfl
    | cons e m ih =>
      intro acc hm
      rw [List.foldl_cons, List.foldl_cons, h e (hm e (by simp))]
      exact ih _ fun e he => hm e (by simp [he])
  rw [this l [] fun _ h => h, BinFile.foldl_insert_sorted l [] hs (by intro k hk; cases hk)]
  rfl

theorem load_save {cv : Conv} {valid : Yy.Text → Bool} {db : SMap Tab} (hs : SMap.Sorted db)
    (hn : ∀ e ∈ db, TblName e.1 ∧ e.1.map toUpperC = e.1) (h : ∀ e ∈ db, Saved cv e.2) :
    ∃ x db', saveTbls cv db = .ok (true, x) ∧ loadTbls cv valid x = .ok (.good (), db') ∧
      List.Forall₂ (fun e e' => e'.1 = e.1 ∧ Restored cv valid e.2 e'.2 ∧ Sharp e.2 e'.2) db db' := by
  obtain ⟨x, defs, ts, h1, h2, h3, h4, h5, h6, h7, h8⟩ := saved_defs valid (fun e he => (hn e he).1) h
  have hcl := laid_clean h3 h2
  have hlen : (db.map (·.1)).length = ts.length := by simpa using h8.length_eq
  have hkeys : ((db.map (·.1)).zip ts).map (·.1) = db.map (·.1) := List.map_fst_zip (by omega)
  refine ⟨x, (db.map (·.1)).zip ts, h1, ?_, ?_⟩
  · rw [loadTbls_ok (fun d hd => def_ok (h4 d hd) (h5 d hd) (hcl d hd)) (toks_expand h3 h2 0), put_tbls (defs_eq h4 hcl h6), h7, fold_all]
    · intro e he
      have : e.1 ∈ db.map (·.1) := by rw [← hkeys]; exact List.mem_map.2 ⟨e, he, rfl⟩
      obtain ⟨y, hy, hy2⟩ := List.mem_map.1 this
      rw [← hy2]
      exact (hn y hy).2
    · exact Texts.sorted_keys hkeys.symm hs
  · clear h1 h2 h3 h4 h5 h6 h7 hcl hlen hkeys h hn hs
    induction h8 with
    | nil => exact .nil
    | cons a _ ih => exact .cons ⟨rfl, a⟩ ih

/-- All names come back, each with what is left of its table. -/
theorem C52_roundtrip {cv : Conv} {valid : Yy.Text → Bool} {db : SMap Tab} (hs : SMap.Sorted db)
    (hn : ∀ e ∈ db, TblName e.1 ∧ e.1.map toUpperC = e.1) (h : ∀ e ∈ db, Saved cv e.2) :
    ∃ x db', saveTbls cv db = .ok (true, x) ∧ loadTbls cv valid x = .ok (.good (), db') ∧
      List.Forall₂ (fun e e' => e'.1 = e.1 ∧ Restored cv valid e.2 e'.2) db db' := by
  obtain ⟨x, db', h1, h2, h3⟩ := load_save (valid := valid) hs hn h
  exact ⟨x, db', h1, h2, h3.imp fun e e' a => ⟨a.1, a.2.1⟩⟩

/-! ## Bounds of the axes -/

/-- The bounds that come back: missing, a `float` of 16 or more, or the `float` next to a number of at most six decimals. -/
def Kept (v : Dbl) : Prop :=
  v = toFloat na ∨ (isNumber v = true ∧ ∃ q, v = .num q ∧ Single q ∧ 16 ≤ |q|) ∨
    ∃ n : Int, v = toFloat (ieee (n / 10 ^ 6)) ∧ |(n / 10 ^ 6 : Rat)| ≤ 16

theorem na_number : isNumber (toFloat na) = false := by decide +kernel

set_option exponentiation.threshold 2000 in
theorem float_small {s : Rat} (hs : |s| ≤ 16) : toFloat (ieee s) = .num (roundF (roundD s)) ∧ Single (roundF (roundD s)) ∧
    isNumber (.num (roundF (roundD s))) = true := by
  have h308 : |s| ≤ (10 : Rat) ^ (308 : Int) :=
    le_trans hs (by exact_mod_cast (by norm_num : (16 : Nat) ≤ 10 ^ 308))
  have hr := (round_small hs).2
  have h128 : |roundF (roundD s)| < (2 : Rat) ^ 128 := lt_of_le_of_lt hr (by norm_num)
  refine ⟨?_, ⟨(roundF_nearest _).1, h128⟩, Equations.number_small (le_trans hr (by norm_num))⟩
  rw [abs_lt] at h128
  rw [ieee_small h308, toFloat, if_neg (by linarith), if_neg (by linarith)]

theorem Kept.ok {v : Dbl} (h : Kept v) : BoundOk v := by
  rcases h with rfl | ⟨_, q, rfl, h, _⟩ | ⟨n, rfl, h⟩
  · exact .inl na_number
  · exact .inr ⟨q, rfl, h⟩
  · exact .inr ⟨_, (float_small h).1, (float_small h).2.1⟩

theorem na_again : againB (toFloat na) = toFloat na := by
  unfold againB
  rw [na_number]
  cases h : toFloat na <;> rfl

theorem Kept.again {v : Dbl} (h : Kept v) : againB v = v := by
  rcases h with rfl | ⟨hn, q, rfl, h, h16⟩ | ⟨n, rfl, h⟩
  · exact na_again
  · simp only [againB, hn, if_true]
    rw [(again_num h).1, back_large h.1 h16 (dec6_near q)]
  · obtain ⟨h1, h2, h3⟩ := float_small h
    rw [h1]
    simp only [againB, h3, if_true]
    rw [back_small h ⟨n, rfl⟩ (dec6_near _), h1]

theorem dec6_small {q : Rat} (h16 : |q| < 16) : |dec6 q| ≤ 16 := by
  obtain ⟨⟨n, e⟩, h6⟩ := dec6_near q
  rw [e] at h6 ⊢
  have hb : |(n : Rat)| ≤ ((16000000 : Int) : Rat) := by
    have h1 : |(n : Rat)| < ((16000001 : Int) : Rat) := by
      rw [abs_lt] at h16
      rw [abs_le] at h6
      rw [abs_lt]
      norm_num at h6 ⊢
      constructor <;> linarith
    have h2 : |n| < 16000001 := by exact_mod_cast h1
    exact_mod_cast (by omega : |n| ≤ 16000000)
  rw [abs_div, abs_of_pos (by norm_num : (0 : Rat) < 10 ^ 6)]
  rw [div_le_iff₀ (by norm_num)]
  norm_num at hb ⊢
  exact hb

theorem again_kept {v : Dbl} (h : BoundOk v) : Kept (againB v) := by
  by_cases hn : isNumber v = true
  · rcases h with h | ⟨q, rfl, hq⟩
    · rw [hn] at h; cases h
    · by_cases h16 : 16 ≤ |q|
      · have e : againB (.num q) = .num q := Kept.again (.inr (.inl ⟨hn, q, rfl, hq, h16⟩))
        rw [e]
        exact .inr (.inl ⟨hn, q, rfl, hq, h16⟩)
      · simp only [againB, hn, if_true]
        obtain ⟨⟨n, e⟩, _⟩ := dec6_near q
        have := dec6_small (not_le.1 h16)
        rw [e] at this
        exact .inr (.inr ⟨n, by rw [e], this⟩)
  · have : againB v = toFloat na := by
      unfold againB
      cases v with
      | num q => simp only [hn]; rfl
      | _ => rfl
    rw [this]
    exact .inl rfl

/-- What is lost of a bound. -/
def NearB (v w : Dbl) : Prop :=
  (isNumber v = false → w = toFloat na) ∧
  ∀ q, v = .num q → isNumber v = true → ∃ y, w = .num y ∧ |y - q| ≤ 1 / 10 ^ 6 ∧ (16 ≤ |q| → y = q)

theorem again_near {v : Dbl} (h : BoundOk v) : NearB v (againB v) := by
  refine ⟨fun hn => ?_, ?_⟩
  · unfold againB
    cases v with
    | num q => simp only [hn]; rfl
    | _ => rfl
  · rintro q rfl hn
    rcases h with h | ⟨q', e, hq⟩
    · rw [hn] at h; cases h
    · cases e
      refine ⟨roundF (roundD (dec6 q)), ?_, ?_⟩
      · simp only [againB, hn, if_true]
        exact (again_num hq).1
      · by_cases h16 : 16 ≤ |q|
        · rw [back_large hq.1 h16 (dec6_near q), sub_self, abs_zero]
          exact ⟨by norm_num, fun _ => rfl⟩
        · refine ⟨?_, fun h => absurd h h16⟩
          have h6 := (dec6_near q).2
          have hs := dec6_small (not_le.1 h16)
          have h1 := double_grid hs
          have h2 := float_grid (round_small hs).1
          rw [abs_le] at h1 h2 h6 ⊢
          constructor <;> (norm_num at h1 h2 h6 ⊢; linarith)

/-- Bounds are written with six decimals: those of 16 or more come back as they were, others within a millionth, and those that are
    not numbers are missing. -/
theorem C52_axis {cv : Conv} {valid : Yy.Text → Bool} {db : SMap Tab} (hs : SMap.Sorted db)
    (hn : ∀ e ∈ db, TblName e.1 ∧ e.1.map toUpperC = e.1) (h : ∀ e ∈ db, Saved cv e.2) :
    ∃ x db', saveTbls cv db = .ok (true, x) ∧ loadTbls cv valid x = .ok (.good (), db') ∧
      List.Forall₂ (fun e e' => e'.1 = e.1 ∧ NearB e.2.ymin e'.2.ymin ∧ NearB e.2.ymax e'.2.ymax ∧ NearB e.2.zmin e'.2.zmin ∧
        NearB e.2.zmax e'.2.zmax) db db' := by
  obtain ⟨x, db', h1, h2, h3⟩ := load_save (valid := valid) hs hn h
  refine ⟨x, db', h1, h2, ?_⟩
  clear h1 h2 hn hs
  induction h3 with
  | nil => exact .nil
  | @cons e e' l l' a _ ih =>
    refine .cons ⟨a.1, ?_⟩ (ih fun e he => h e (by simp [he]))
    obtain ⟨s1, s2, s3, s4⟩ := a.2.2
    have := h e (by simp)
    rw [s1, s2, s3, s4]
    exact ⟨again_near this.ymin, again_near this.ymax, again_near this.zmin, again_near this.zmax⟩

/-! ## Tables that are not changed -/

/-- An alignment is set. -/
def Aligned (a : Nat) : Prop := a / 8 * 8 = 8 ∨ a / 8 * 8 = 16 ∨ a / 8 * 8 = 32 ∨ a / 8 * 8 = 64

/-- The cells that come back: the empty text aligned on the left; texts without quotes at their ends and formulas that compile, that
    the conversions do not change. -/
def CellExact (cv : Conv) (valid : Yy.Text → Bool) (c : TCell) : Prop :=
  c = ⟨.str [], 16⟩ ∨
  (content c ≠ [] ∧ Aligned c.attr ∧ (∃ o, Prints cv c o ∧ Decoded cv o (content c)) ∧ (isLec c = true → valid (content c) = true) ∧
    (isLec c = false → (content c).head? ≠ some '"' ∧ (content c).getLast? ≠ some '"'))

/-- The lines that come back. -/
def LineExact (cv : Conv) (valid : Yy.Text → Bool) (ncols : Int) (l : TLine) : Prop :=
  (l.type = 110 ∧ (l.cells.length : Int) = ncols ∧ (∀ c ∈ l.cells, CellExact cv valid c) ∧ (l.graph = 0 ∨ l.graph = 2)) ∨
  (l.type = 113 ∧ (∃ c, l.cells = [c] ∧ CellExact cv valid c ∧ isLec c = false) ∧ l.right = false ∧ l.graph = 0) ∨
  ((l.type = 111 ∨ l.type = 106 ∨ l.type = 116 ∨ l.type = 105) ∧ l.cells = [] ∧ l.right = false ∧ l.graph = 0)

/-- The tables that come back. -/
structure Exact (cv : Conv) (valid : Yy.Text → Bool) (t : Tab) : Prop where
  ncols : 1 ≤ t.ncols ∧ t.ncols < 2 ^ 15
  language : t.language = 100 ∨ t.language = 101 ∨ t.language = 102
  align : t.align = 0 ∨ t.align = 1 ∨ t.align = 2
  box : Byte t.box
  axis : Byte t.axis
  gridx : Byte t.gridx
  gridy : Byte t.gridy
  ymin : Kept t.ymin
  ymax : Kept t.ymax
  zmin : Kept t.zmin
  zmax : Kept t.zmax
  divider : (t.divider.length : Int) = t.ncols ∧ ∀ c ∈ t.divider, CellExact cv valid c
  lines : ∀ l ∈ t.lines, LineExact cv valid t.ncols l
  rest : t.repeatCols = 0 ∧ t.attr = 0 ∧ t.shadow = 0

theorem quote_ends {u : Yy.Text} (h : u.head? ≠ some '"' ∧ u.getLast? ≠ some '"') : Stripped u u ∧ u ≠ ['"'] := by
  refine ⟨⟨[], [], by simp, .inr ⟨rfl, h.1⟩, .inr ⟨rfl, h.2⟩⟩, ?_⟩
  rintro rfl
  exact h.1 rfl

theorem stripped_same {u v : Yy.Text} (h : u.head? ≠ some '"' ∧ u.getLast? ≠ some '"') (hs : Stripped u v) : v = u := by
  rw [← stripped_bare hs (quote_ends h).2, stripped_bare (quote_ends h).1 (quote_ends h).2]

theorem CellExact.saved {cv : Conv} {valid : Yy.Text → Bool} {c : TCell} (h : CellExact cv valid c) : CellSaved cv c := by
  rcases h with rfl | ⟨_, _, ⟨o, h1, h2⟩, _, h3⟩
  · exact .inl rfl
  · exact .inr ⟨o, _, h1, h2, fun hl => (quote_ends (h3 hl)).2⟩

theorem aligned_back {d a : Nat} (h : Aligned a) : attrBack d a = a := by
  unfold Aligned at h
  rw [attrBack, if_pos h]
  omega

theorem CellExact.back {cv : Conv} {valid : Yy.Text → Bool} {c r : TCell} (h : CellExact cv valid c) (hr : CellRestored cv valid c r) : r = c := by
  rcases h with rfl | ⟨hne, ha, ⟨o, h1, h2⟩, hv, hq⟩
  · rcases hr with ⟨_, rfl⟩ | ⟨h, _⟩
    · rfl
    · exact absurd rfl h
  · rcases hr with ⟨h, _⟩ | ⟨_, o', u, k1, k2, k3⟩
    · exact absurd h hne
    · cases Texts.coded_unique h1.coded k1
      cases Texts.decoded_unique h2 k2
      obtain ⟨b, a⟩ := c
      rcases k3 with ⟨hl, rfl⟩ | ⟨hl, v, k4, rfl⟩
      · rw [aligned_back ha, if_neg hne, if_pos (hv hl)]
        cases b with
        | str t => cases hl
        | lec l =>
          cases l with
          | none => exact absurd rfl hne
          | some l => rfl
      · rw [aligned_back ha, stripped_same (hq hl) k4]
        cases b with
        | str t => rfl
        | lec l => cases hl

theorem cells_back {cv : Conv} {valid : Yy.Text → Bool} {cs rs : List TCell} (h : ∀ c ∈ cs, CellExact cv valid c)
    (hr : List.Forall₂ (CellRestored cv valid) cs rs) : rs = cs := by
  induction hr with
  | nil => rfl
  | @cons c r cs rs a _ ih => rw [(h c (by simp)).back a, ih fun c hc => h c (by simp [hc])]

theorem LineExact.saved {cv : Conv} {valid : Yy.Text → Bool} {n : Int} {l : TLine} (h : LineExact cv valid n l) : LineSaved cv n l := by
  rcases h with ⟨h1, h2, h3, _⟩ | ⟨h1, ⟨c, h2, h3, h4⟩, _⟩ | ⟨h, _⟩
  · exact .inl ⟨h1, h2, fun c hc => (h3 c hc).saved⟩
  · exact .inr (.inl ⟨h1, c, [], h2, h3.saved, by simp [h4]⟩)
  · exact .inr (.inr h)

theorem LineExact.back {cv : Conv} {valid : Yy.Text → Bool} {n : Int} {l r : TLine} (h : LineExact cv valid n l) (hr : LineRestored cv valid l r) :
    r = l := by
  obtain ⟨ht, hr⟩ := hr
  obtain ⟨ty, g, ri, cs⟩ := l
  obtain ⟨ty', g', ri', cs'⟩ := r
  simp only [LineExact] at h ht hr
  subst ht
  rcases h with ⟨h1, _, h3, h4⟩ | ⟨h1, ⟨c, h2, h3, _⟩, h5, h6⟩ | ⟨h1, h2, h3, h4⟩
  · rcases hr with ⟨_, k1, k2, k3⟩ | ⟨k, _⟩ | ⟨k, _⟩
    · rw [cells_back h3 k1, k2, k3]
      rcases h4 with rfl | rfl <;> rfl
    · omega
    · exact absurd h1 k
  · rcases hr with ⟨k, _⟩ | ⟨_, ⟨d, rest, c', k1, k2, k3⟩, k4, k5⟩ | ⟨_, k, _⟩
    · omega
    · rw [h2] at k1
      cases k1
      rw [k2, h3.back k3, h2, k4, k5, h5, h6]
    · exact absurd h1 k
  · rcases hr with ⟨k, _⟩ | ⟨k, _⟩ | ⟨_, _, k1, k2, k3⟩
    · omega
    · omega
    · rw [k1, k2, k3, h2, h3, h4]

theorem Exact.saved {cv : Conv} {valid : Yy.Text → Bool} {t : Tab} (h : Exact cv valid t) : Saved cv t :=
  ⟨h.ncols, h.language, h.align, h.box, h.axis, h.gridx, h.gridy, h.ymin.ok, h.ymax.ok, h.zmin.ok, h.zmax.ok,
    ⟨h.divider.1, fun c hc => (h.divider.2 c hc).saved⟩, fun l hl => (h.lines l hl).saved⟩

theorem lines_back {cv : Conv} {valid : Yy.Text → Bool} {n : Int} {ls rs : List TLine} (h : ∀ l ∈ ls, LineExact cv valid n l)
    (hr : List.Forall₂ (LineRestored cv valid) ls rs) : rs = ls := by
  induction hr with
  | nil => rfl
  | @cons c r cs rs a _ ih => rw [(h c (by simp)).back a, ih fun c hc => h c (by simp [hc])]

theorem Exact.back {cv : Conv} {valid : Yy.Text → Bool} {t r : Tab} (h : Exact cv valid t) (hr : Restored cv valid t r) (hs : Sharp t r) : r = t := by
  have e1 := cells_back h.divider.2 hr.divider
  have e2 := lines_back h.lines hr.lines
  obtain ⟨s1, s2, s3, s4⟩ := hs
  rw [h.ymin.again] at s1
  rw [h.ymax.again] at s2
  rw [h.zmin.again] at s3
  rw [h.zmax.again] at s4
  obtain ⟨r1, r2, r3⟩ := h.rest
  obtain ⟨q1, q2, q3⟩ := hr.rest
  have a1 := hr.ncols
  have a2 := hr.language
  have a3 := hr.align
  have a4 := hr.box
  have a5 := hr.axis
  have a6 := hr.gridx
  have a7 := hr.gridy
  clear h hr
  cases t
  cases r
  simp only at *
  simp_all

theorem exact_back {cv : Conv} {valid : Yy.Text → Bool} {db : SMap Tab} (hs : SMap.Sorted db)
    (hn : ∀ e ∈ db, TblName e.1 ∧ e.1.map toUpperC = e.1) (h : ∀ e ∈ db, Exact cv valid e.2) :
    ∃ x, saveTbls cv db = .ok (true, x) ∧ loadTbls cv valid x = .ok (.good (), db) := by
  obtain ⟨x, db', h1, h2, h3⟩ := load_save (valid := valid) hs hn fun e he => (h e he).saved
  refine ⟨x, h1, ?_⟩
  rw [h2]
  have : db' = db := by
    clear h2 h1 hn hs
    induction h3 with
    | nil => rfl
    | @cons e e' l l' a _ ih =>
      rw [ih fun e he => h e (by simp [he])]
      exact congrArg (· :: l) (Prod.ext a.1 ((h e (by simp)).back a.2.1 a.2.2))
  rw [this]

/-- Tables come back as they were when their texts have no quotes at their ends and are the same in the code page, their formulas
    compile, their graphs are lines and bars, and their bounds are large or have at most six decimals. -/
theorem C52_exact {cv : Conv} {valid : Yy.Text → Bool} {db : SMap Tab} (hs : SMap.Sorted db)
    (hn : ∀ e ∈ db, TblName e.1 ∧ e.1.map toUpperC = e.1) (h : ∀ e ∈ db, Exact cv valid e.2) :
    ∃ x, saveTbls cv db = .ok (true, x) ∧ loadTbls cv valid x = .ok (.good (), db) := exact_back hs hn h

/-! ## Saving again -/

/-- The cells whose remains come back: something is left in the code page, that compiles or has no quotes at its ends. -/
def CellSteady (cv : Conv) (valid : Yy.Text → Bool) (c : TCell) : Prop :=
  content c = [] ∨ ∃ o u, Prints cv c o ∧ Decoded cv o u ∧ u ≠ [] ∧ (isLec c = true → valid u = true) ∧
    (isLec c = false → u.head? ≠ some '"' ∧ u.getLast? ≠ some '"')

/-- The tables whose remains come back. -/
structure Steady (cv : Conv) (valid : Yy.Text → Bool) (t : Tab) : Prop where
  saved : Saved cv t
  divider : ∀ c ∈ t.divider, CellSteady cv valid c
  lines : ∀ l ∈ t.lines, l.type = 110 ∨ l.type = 113 → ∀ c ∈ l.cells, CellSteady cv valid c

theorem aligned_again {d a : Nat} (hd : d = 8 ∨ d = 16 ∨ d = 64) : Aligned (attrBack d a) := by
  unfold Aligned attrBack
  split <;> omega

theorem CellSteady.exact {cv : Conv} (hf : Texts.Faithful cv) {valid : Yy.Text → Bool} {c r : TCell} (h : CellSteady cv valid c)
    (hr : CellRestored cv valid c r) : CellExact cv valid r ∧ (isLec r = true → isLec c = true ∧ content c ≠ []) := by
  rcases hr with ⟨_, rfl⟩ | ⟨hne, o, u, k1, k2, k3⟩
  · exact ⟨.inl rfl, by simp [isLec]⟩
  · rcases h with h | ⟨o', u', h1, h2, h3, h4, h5⟩
    · exact absurd h hne
    · cases Texts.coded_unique h1.coded k1
      cases Texts.decoded_unique h2 k2
      obtain ⟨v, b1, b2, b3⟩ := hf.both fun c hc => (h1.carried c hc).1
      cases Texts.decoded_unique h2 b2
      rcases k3 with ⟨hl, rfl⟩ | ⟨hl, v, k4, rfl⟩
      · rw [if_neg h3, if_pos (h4 hl)]
        exact ⟨.inr ⟨h3, aligned_again (by omega), ⟨o, ⟨b1, b3, h1.carried, h1.carets, fun _ => h1.quotes hl⟩, h2⟩, fun _ => h4 hl,
          fun h => by cases h⟩, fun _ => ⟨hl, hne⟩⟩
      · rw [stripped_same (h5 hl) k4]
        exact ⟨.inr ⟨h3, aligned_again (by split <;> omega), ⟨o, ⟨b1, b3, h1.carried, h1.carets, fun h => by cases h⟩, h2⟩, fun h => by (cases h),
          fun _ => h5 hl⟩, fun h => by cases h⟩

theorem Steady.exact {cv : Conv} (hf : Texts.Faithful cv) {valid : Yy.Text → Bool} {t r : Tab} (h : Steady cv valid t)
    (hr : Restored cv valid t r) (hs : Sharp t r) : Exact cv valid r := by
  obtain ⟨s1, s2, s3, s4⟩ := hs
  have hsv := h.saved
  refine ⟨?_, ?_, ?_, ?_, ?_, ?_, ?_, ?_, ?_, ?_, ?_, ⟨?_, ?_⟩, ?_, hr.rest⟩
  · rw [hr.ncols]; exact hsv.ncols
  · rw [hr.language]; exact hsv.language
  · rw [hr.align]; exact hsv.align
  · rw [hr.box]; exact hsv.box
  · rw [hr.axis]; exact hsv.axis
  · rw [hr.gridx]; exact hsv.gridx
  · rw [hr.gridy]; exact hsv.gridy
  · rw [s1]; exact again_kept hsv.ymin
  · rw [s2]; exact again_kept hsv.ymax
  · rw [s3]; exact again_kept hsv.zmin
  · rw [s4]; exact again_kept hsv.zmax
  · rw [hr.ncols, ← hsv.divider.1, hr.divider.length_eq]
  · intro c' hc'
    obtain ⟨c, hc, a⟩ := Texts.forall₂_mem hr.divider c' hc'
    exact ((h.divider c hc).exact hf a).1
  · intro l' hl'
    obtain ⟨l, hl, ht, a⟩ := Texts.forall₂_mem hr.lines l' hl'
    have hsl := hsv.lines l hl
    have hst := h.lines l hl
    rw [hr.ncols]
    rcases a with ⟨a1, a2, a3, a4⟩ | ⟨a1, ⟨c, rest, c', a2, a3, a4⟩, a5, a6⟩ | ⟨a1, a2, a3, a4, a5⟩
    · rcases hsl with ⟨_, b, _⟩ | ⟨b, _⟩ | b
      · refine .inl ⟨ht.trans a1, by rw [← b, a2.length_eq], ?_, by rw [a4]; split <;> omega⟩
        intro c' hc'
        obtain ⟨c, hc, k⟩ := Texts.forall₂_mem a2 c' hc'
        exact ((hst (.inl a1) c hc).exact hf k).1
      · omega
      · omega
    · rcases hsl with ⟨b, _⟩ | ⟨_, d, rest', b1, b2, b3⟩ | b
      · omega
      · rw [a2] at b1
        cases b1
        obtain ⟨k1, k2⟩ := (hst (.inr a1) c (by rw [a2]; simp)).exact hf a4
        refine .inr (.inl ⟨ht.trans a1, ⟨c', a3, k1, ?_⟩, a5, a6⟩)
        cases hc : isLec c' with
        | false => rfl
        | true =>
          obtain ⟨k3, k4⟩ := k2 hc
          exact absurd (b3 k3) k4
      · omega
    · rcases hsl with ⟨b, _⟩ | ⟨b, _⟩ | b
      · exact absurd b a1
      · exact absurd b a2
      · exact .inr (.inr ⟨by rw [ht]; exact b, a3, a4, a5⟩)

/-- What was loaded from a saved file comes back as it was when it is saved and loaded again. -/
theorem C52_stable {cv : Conv} (hf : Texts.Faithful cv) {valid : Yy.Text → Bool} {db : SMap Tab} (hs : SMap.Sorted db)
    (hn : ∀ e ∈ db, TblName e.1 ∧ e.1.map toUpperC = e.1) (h : ∀ e ∈ db, Steady cv valid e.2) :
    ∃ x db' y, saveTbls cv db = .ok (true, x) ∧ loadTbls cv valid x = .ok (.good (), db') ∧
      saveTbls cv db' = .ok (true, y) ∧ loadTbls cv valid y = .ok (.good (), db') := by
  obtain ⟨x, db', h1, h2, h3⟩ := load_save (valid := valid) hs hn fun e he => (h e he).saved
  obtain ⟨y, k1, k2⟩ := exact_back (cv := cv) (valid := valid) (db := db') (by
    refine Texts.sorted_keys (l := db) ?_ hs
    clear h1 h2 hn hs h
    induction h3 with
    | nil => rfl
    | cons a _ ih => simp [a.1, ih]) (by
    intro e' he'
    obtain ⟨e, he, a⟩ := Texts.forall₂_mem h3 e' he'
    rw [a.1]
    exact hn e he) (by
    intro e' he'
    obtain ⟨e, he, a⟩ := Texts.forall₂_mem h3 e' he'
    exact (h e he).exact hf a.2.1 a.2.2)
  exact ⟨x, db', y, h1, h2, k1, k2⟩

/-! ## Examples -/

open Texts (same same_faithful coded_same decoded_same objName)

/-- Every formula compiles. -/
def any : Yy.Text → Bool := fun _ => true

/-- A table of two columns: a title, a line with a formula, a separator, and a line with bars on the right axis. -/
def tabA : Tab :=
  { newTab any 2 with
    language := 102, box := 1, gridy := 2, align := 1, ymin := toFloat (ieee (-5 / 4)), ymax := .num 4096, zmin := toFloat (ieee (1 / 10)),
    divider := [⟨.lec (some ['1']), 16⟩, ⟨.lec (some ['G', 'N', 'P']), 64⟩],
    lines := [⟨113, 0, false, [⟨.str "The \"great\" total".toList, 9⟩]⟩,
      ⟨110, 0, false, [⟨.str [], 16⟩, ⟨.str ['#', 'Y'], 8⟩]⟩, ⟨111, 0, false, []⟩,
      ⟨110, 2, true, [⟨.str "a\\b".toList, 22⟩, ⟨.lec (some "GNP/P[-1]".toList), 64⟩]⟩, ⟨116, 0, false, []⟩] }

theorem tblName {w : Yy.Text} (h : ObjName w) (h2 : ∀ k ∈ reserved, k.toList ≠ w) : TblName w := ⟨h, h2⟩

theorem same_cell {c : TCell} (h1 : content c ≠ []) (h2 : Aligned c.attr) (h3 : ∀ x ∈ content c, x.toNat ≠ 0) (h4 : Carried (content c))
    (h5 : Carets (content c)) (h6 : isLec c = true → ∀ x ∈ content c, x ≠ '"' ∧ x ≠ '\\')
    (h7 : isLec c = false → (content c).head? ≠ some '"' ∧ (content c).getLast? ≠ some '"') : CellExact same any c :=
  .inr ⟨h1, h2, ⟨content c, ⟨h3, coded_same, h4, h5, h6⟩, decoded_same⟩, fun _ => rfl, h7⟩

instance (a : Nat) : Decidable (Aligned a) := by unfold Aligned; infer_instance
instance (n : Int) : Decidable (Byte n) := by unfold Byte; infer_instance

theorem tabA_exact : Exact same any tabA := by
  refine ⟨by decide +kernel, by decide +kernel, by decide +kernel, by decide +kernel, by decide +kernel, by decide +kernel, by decide +kernel,
    .inr (.inr ⟨-1250000, ?_, ?_⟩), .inr (.inl ⟨by decide +kernel, 4096, rfl, ⟨⟨1, 12, by norm_num, by norm_num, by norm_num⟩, by norm_num [abs_of_pos]⟩, by norm_num [abs_of_pos]⟩),
    .inr (.inr ⟨100000, ?_, ?_⟩), .inl rfl, ⟨by decide +kernel, ?_⟩, ?_, by decide +kernel⟩
  · norm_num [tabA]
  · norm_num [abs_div]
  · norm_num [tabA]
  · norm_num [abs_div]
  · intro c hc
    simp only [tabA, List.mem_cons, List.not_mem_nil, or_false] at hc
    rcases hc with rfl | rfl
    · exact same_cell (by decide) (by decide) (by decide) (by decide +kernel) (by decide +kernel) (by decide) (by decide)
    · exact same_cell (by decide) (by decide) (by decide) (by decide +kernel) (by decide +kernel) (by decide) (by decide)
  · intro l hl
    simp only [tabA, List.mem_cons, List.not_mem_nil, or_false] at hl
    rcases hl with rfl | rfl | rfl | rfl | rfl
    · exact .inr (.inl ⟨rfl, ⟨_, rfl, same_cell (by decide) (by decide) (by decide +kernel) (by decide +kernel) (by decide +kernel) (by decide)
        (by decide +kernel), rfl⟩, rfl, rfl⟩)
    · refine .inl ⟨rfl, rfl, ?_, .inl rfl⟩
      intro c hc
      simp only [List.mem_cons, List.not_mem_nil, or_false] at hc
      rcases hc with rfl | rfl
      · exact .inl rfl
      · exact same_cell (by decide) (by decide) (by decide) (by decide +kernel) (by decide +kernel) (by decide) (by decide)
    · exact .inr (.inr ⟨.inl rfl, rfl, rfl, rfl⟩)
    · refine .inl ⟨rfl, rfl, ?_, .inr rfl⟩
      intro c hc
      simp only [List.mem_cons, List.not_mem_nil, or_false] at hc
      rcases hc with rfl | rfl
      · exact same_cell (by decide) (by decide) (by decide) (by decide +kernel) (by decide +kernel) (by decide) (by decide)
      · exact same_cell (by decide) (by decide) (by decide) (by decide +kernel) (by decide +kernel) (by decide +kernel) (by decide)
    · exact .inr (.inr ⟨.inr (.inr (.inl rfl)), rfl, rfl, rfl⟩)

theorem a_name : ∀ e ∈ [(['A'], tabA)], TblName e.1 ∧ e.1.map toUpperC = e.1 := by
  intro e he
  rw [List.mem_singleton.1 he]
  exact ⟨⟨objName (by decide +kernel), by decide +kernel⟩, by decide⟩

/-- `C52_exact`. -/
example : ∃ x, saveTbls same [(['A'], tabA)] = .ok (true, x) ∧ loadTbls same any x = .ok (.good (), [(['A'], tabA)]) :=
  C52_exact ⟨(by intro k hk; cases hk), trivial⟩ a_name fun e he => by rw [List.mem_singleton.1 he]; exact tabA_exact

/-- The file. -/
example : saveTbls same [(['A'], tabA)] = .ok (true, ("A {\nDIM 2\nFRENCH \nBOX 1 AXIS 0 XGRID 0 YGRID 2 \nALIGN CENTER \nYMIN -1.250000 " ++
    "\nYMAX 4096.000000 \nZMIN 0.100000 \nDIV LEC \"1\" LEFT LEC \"GNP\" DECIMAL \n- TITLE \"The \\\"great\\\" total\" BOLD CENTER " ++
    "\n- \"\" \"#Y\" CENTER  LAXIS  GRLINE \n- LINE \n- \"a\\\\b\" ITALIC UNDERLINE LEFT LEC \"GNP/P[-1]\" DECIMAL  RAXIS  GRBAR \n- DATE " ++
    "\n/* END OF TABLE */\n}\n").toList) := by decide +kernel

/-- A table that is changed: an empty divider, a graph that is not written, a bound with too many decimals, attributes. -/
def tabB : Tab :=
  { newTab any 2 with
    repeatCols := 3, attr := 2, shadow := 1, zmax := .num (1 / 3 * 3 / 1024),
    lines := [⟨113, 2, true, [⟨.str ['T'], 1⟩, ⟨.str ['U'], 16⟩]⟩, ⟨110, 1, false, [⟨.str ['a', '"', 'b'], 0⟩, ⟨.lec (some ['X']), 32⟩]⟩, ⟨106, 2, true, []⟩] }

theorem same_steady {c : TCell} (h1 : content c ≠ []) (h3 : ∀ x ∈ content c, x.toNat ≠ 0) (h4 : Carried (content c))
    (h5 : Carets (content c)) (h6 : isLec c = true → ∀ x ∈ content c, x ≠ '"' ∧ x ≠ '\\')
    (h7 : isLec c = false → (content c).head? ≠ some '"' ∧ (content c).getLast? ≠ some '"') : CellSteady same any c ∧ CellSaved same c :=
  ⟨.inr ⟨content c, content c, ⟨h3, coded_same, h4, h5, h6⟩, decoded_same, h1, fun _ => rfl, h7⟩,
   .inr ⟨content c, content c, ⟨h3, coded_same, h4, h5, h6⟩, decoded_same, fun h => (quote_ends (h7 h)).2⟩⟩

theorem tabB_cells : (∀ c ∈ tabB.divider, CellSteady same any c ∧ CellSaved same c) ∧
    ∀ l ∈ tabB.lines, ∀ c ∈ l.cells, CellSteady same any c ∧ CellSaved same c := by
  constructor
  · intro c hc
    have : tabB.divider = [⟨.lec (some ['1']), 16⟩, ⟨.lec none, 64⟩] := rfl
    rw [this] at hc
    simp only [List.mem_cons, List.not_mem_nil, or_false] at hc
    rcases hc with rfl | rfl
    · exact same_steady (by decide) (by decide) (by decide +kernel) (by decide +kernel) (by decide) (by decide)
    · exact ⟨.inl rfl, .inl rfl⟩
  · intro l hl c hc
    simp only [tabB, List.mem_cons, List.not_mem_nil, or_false] at hl
    rcases hl with rfl | rfl | rfl
    · simp only [List.mem_cons, List.not_mem_nil, or_false] at hc
      rcases hc with rfl | rfl <;>
        exact same_steady (by decide) (by decide) (by decide +kernel) (by decide +kernel) (by decide) (by decide)
    · simp only [List.mem_cons, List.not_mem_nil, or_false] at hc
      rcases hc with rfl | rfl <;>
        exact same_steady (by decide) (by decide) (by decide +kernel) (by decide +kernel) (by decide) (by decide)
    · cases hc

theorem tabB_saved : Saved same tabB := by
  refine ⟨by decide +kernel, by decide +kernel, by decide +kernel, by decide +kernel, by decide +kernel, by decide +kernel, by decide +kernel,
    .inl na_number, .inl na_number, .inl na_number, .inr ⟨_, rfl, ⟨1, -10, by norm_num, by norm_num, by norm_num⟩, by norm_num [abs_of_pos]⟩,
    ⟨by decide +kernel, fun c hc => (tabB_cells.1 c hc).2⟩, ?_⟩
  intro l hl
  have hc := fun c hc => (tabB_cells.2 l hl c hc).2
  simp only [tabB, List.mem_cons, List.not_mem_nil, or_false] at hl
  rcases hl with rfl | rfl | rfl
  · exact .inr (.inl ⟨rfl, _, _, rfl, hc _ (by simp), by simp [isLec]⟩)
  · exact .inl ⟨rfl, rfl, hc⟩
  · exact .inr (.inr (.inr (.inl rfl)))

theorem b_name : ∀ e ∈ [(['B'], tabB)], TblName e.1 ∧ e.1.map toUpperC = e.1 := by
  intro e he
  rw [List.mem_singleton.1 he]
  exact ⟨⟨objName (by decide +kernel), by decide +kernel⟩, by decide⟩

/-- `C52_roundtrip`, `C52_axis`. -/
example : ∃ x db', saveTbls same [(['B'], tabB)] = .ok (true, x) ∧ loadTbls same any x = .ok (.good (), db') ∧
    List.Forall₂ (fun e e' => e'.1 = e.1 ∧ Restored same any e.2 e'.2) [(['B'], tabB)] db' :=
  C52_roundtrip ⟨(by intro k hk; cases hk), trivial⟩ b_name fun e he => by rw [List.mem_singleton.1 he]; exact tabB_saved

/-- `C52_stable`. -/
example : ∃ x db' y, saveTbls same [(['B'], tabB)] = .ok (true, x) ∧ loadTbls same any x = .ok (.good (), db') ∧
    saveTbls same db' = .ok (true, y) ∧ loadTbls same any y = .ok (.good (), db') :=
  C52_stable same_faithful ⟨(by intro k hk; cases hk), trivial⟩ b_name fun e he => by
    rw [List.mem_singleton.1 he]
    exact ⟨tabB_saved, fun c hc => (tabB_cells.1 c hc).1, fun l hl _ c hc => (tabB_cells.2 l hl c hc).1⟩

/-- What is written of it. -/
def tabBtext : Yy.Text := ("B {\nDIM 2\nENGLISH \nBOX 0 AXIS 0 XGRID 0 YGRID 0 \nALIGN LEFT \nZMAX 0.000977 \nDIV LEC \"1\" LEFT \"\" " ++
  "\n- TITLE \"T\" BOLD \n- \"a\\\"b\" LEC \"X\" RIGHT  LAXIS  GRLINE \n- MODE \n/* END OF TABLE */\n}\n").toList

/-- What is lost: the attributes, the second cell of the title, the graphs that are not bars, the axis and the graph of lines without
    cells, empty formulas, decimals of bounds. -/
theorem C52_lost_counterexample : saveTbls same [(['B'], tabB)] = .ok (true, tabBtext) ∧
    loadTbls same any tabBtext = .ok (.good (), [(['B'], { newTab any 2 with
      zmax := toFloat (ieee (977 / 10 ^ 6)), divider := [⟨.lec (some ['1']), 16⟩, ⟨.str [], 16⟩],
      lines := [⟨113, 0, false, [⟨.str ['T'], 17⟩]⟩, ⟨110, 0, false, [⟨.str ['a', '"', 'b'], 16⟩, ⟨.lec (some ['X']), 32⟩]⟩, ⟨106, 0, false, []⟩] })]) ∧
    toFloat (ieee (977 / 10 ^ 6)) ≠ tabB.zmax := by decide +kernel

/-! ### Loading -/

/-- Two tables: the second one with the same name counts. -/
def two : List TDef :=
  [⟨['a'], none, [.line (.plain .sep [])]⟩, ⟨['A'], some 1, [.set .box 300, .line (.cells [⟨false, ['x', '#'], [.bold]⟩] [.bar, .raxis])]⟩]

def twoText : Yy.Text := "a {- LINE }A {DIM 1 BOX 300 - \"x#\" BOLD GRBAR RAXIS }".toList

theorem laid_of {ts us : List TTok} {x y : Yy.Text} (h : Piece ts x) (e1 : us = ts) (e2 : y = x) : Toks us y := by
  have := h.chunk [] [] (.nil .nil)
  rw [List.append_nil, List.append_nil] at this
  rw [e1, e2]
  exact this

theorem two_laid : TblsLaid two twoText := by
  have w : ∀ k : Yy.Text, ObjName k → Piece [.word k, .sign '{'] (k ++ [' ', '{']) := by
    intro k hk
    have := (piece_word hk.ne hk.head hk.all (c := ' ') (.inl rfl)).append (piece_sign (c := '{') (.inr (.inl rfl)))
    simpa using this
  have k : ∀ s : String, Wordy s.toList → Piece [kw s] (s.toList ++ [' ']) := fun s h => piece_kw rfl h
  have dash : Piece [.sign '-'] ['-', ' '] := (piece_sign (.inl rfl)).append piece_space
  have close : Piece [.sign '}'] ['}'] := piece_sign (.inr (.inr rfl))
  have hs : Piece [.str ['x', '#']] ['"', 'x', '#', '"', ' '] :=
    (piece_str (t := ['x', '#']) (b := ['x', '#']) (Texts.lit_plain (by decide +kernel) (by decide +kernel) (by decide))
      (by simp only [Lec.Clean]; decide)).append piece_space
  have h1 := (w ['a'] (objName (by decide +kernel))).append (dash.append ((k "LINE" (by decide +kernel)).append close))
  have h2 := (w ['A'] (objName (by decide +kernel))).append ((k "DIM" (by decide +kernel)).append ((piece_int 1 (by omega) (c := ' ') (.inl rfl)).append
    ((k "BOX" (by decide +kernel)).append ((piece_int 300 (by omega) (c := ' ') (.inl rfl)).append (dash.append (hs.append
    ((k "BOLD" (by decide +kernel)).append ((k "GRBAR" (by decide +kernel)).append ((k "RAXIS" (by decide +kernel)).append close)))))))))
  exact laid_of (h1.append h2) rfl (by decide +kernel)

/-- `C52_load`. -/
example : ∃ db, loadTbls same any twoText = .ok (.good (), db) ∧ SMap.find ['A'] db = some { newTab any 1 with
    box := 44, lines := [⟨110, 2, true, [⟨.str ['x', '#'], 9⟩]⟩] } := by
  have hk : twoText.filter kept = twoText := by decide +kernel
  have hm : List.Forall₂ (Means same any) two [{ newTab any 2 with lines := [⟨111, 0, false, []⟩] }, { newTab any 1 with
      box := 44, lines := [⟨110, 2, true, [⟨.str ['x', '#'], 9⟩]⟩] }] := by
    refine .cons ?_ (.cons ?_ .nil)
    · exact ⟨by decide +kernel, rfl, rfl, .inl ⟨rfl, rfl⟩, .inl ⟨rfl, rfl⟩, .inl ⟨rfl, rfl⟩, .inl ⟨rfl, rfl⟩, .inr ⟨.inl rfl, rfl⟩,
        .inr ⟨.inl rfl, rfl⟩, .inr ⟨.inl rfl, rfl⟩, .inr ⟨.inl rfl, rfl⟩, .inl ⟨rfl, rfl⟩, .cons ⟨rfl, rfl, rfl, rfl⟩ .nil, rfl, rfl, rfl⟩
    · refine ⟨by decide +kernel, rfl, rfl, .inr ⟨300, by decide +kernel, by decide, by decide, by decide⟩, .inl ⟨rfl, rfl⟩, .inl ⟨rfl, rfl⟩, .inl ⟨rfl, rfl⟩,
        .inr ⟨.inl rfl, rfl⟩, .inr ⟨.inl rfl, rfl⟩, .inr ⟨.inl rfl, rfl⟩, .inr ⟨.inl rfl, rfl⟩, .inl ⟨rfl, rfl⟩,
        .cons ⟨rfl, .cons ⟨['x', '#'], decoded_same, .inr ⟨rfl, by decide, ['x', '#'], (quote_ends (by decide)).1, by decide +kernel⟩⟩ .nil,
          by decide +kernel, by decide +kernel⟩ .nil, rfl, rfl, rfl⟩
  obtain ⟨db, h1, _, h2⟩ := C52_load (t := twoText) (by rw [hk]; exact two_laid) (by decide +kernel) (by
    intro d hd
    simp only [two, List.mem_cons, List.not_mem_nil, or_false] at hd
    rcases hd with rfl | rfl
    · exact ⟨⟨objName (by decide +kernel), by decide +kernel⟩, by decide, by intro e he; rw [List.mem_singleton.1 he]; trivial⟩
    · refine ⟨⟨objName (by decide +kernel), by decide +kernel⟩, by decide, ?_⟩
      intro e he
      simp only [List.mem_cons, List.not_mem_nil, or_false] at he
      rcases he with rfl | rfl
      · trivial
      · rfl) (by
    intro d hd e he
    simp only [two, List.mem_cons, List.not_mem_nil, or_false] at hd
    rcases hd with rfl | rfl
    · rw [List.mem_singleton.1 he]; trivial
    · simp only [List.mem_cons, List.not_mem_nil, or_false] at he
      rcases he with rfl | rfl
      · trivial
      · intro c hc
        rw [List.mem_singleton.1 hc]
        exact ⟨_, decoded_same, fun _ => by decide⟩) hm
  refine ⟨db, h1, ?_⟩
  rw [h2]
  decide +kernel

/-- `C52_failed`. -/
example : ∃ db, loadTbls same any "a {- LINE }b c".toList = .ok (.bad, db) ∧
    SMap.find ['A'] db = some { newTab any 2 with lines := [⟨111, 0, false, []⟩] } := by
  have hk : "a {- LINE }b c".toList.filter kept = "a {- LINE }b c".toList := by decide +kernel
  have hl : Toks ([(⟨['a'], none, [.line (.plain .sep [])]⟩ : TDef)].flatMap TDef.toks ++ .word ['b'] :: [.word ['c']])
      "a {- LINE }b c".toList := by
    have w : ∀ (k : Yy.Text) (c : Char), ObjName k → c = ' ' ∨ c = '\n' → Piece [.word k] (k ++ [c]) := by
      intro k c hk hc
      exact piece_word hk.ne hk.head hk.all hc
    have h1 := (((w ['a'] ' ' (objName (by decide +kernel)) (.inl rfl)).append (piece_sign (c := '{') (.inr (.inl rfl)))).append
      (((piece_sign (.inl rfl)).append piece_space).append ((piece_kw (s := "LINE") rfl (by decide +kernel)).append
      (piece_sign (c := '}') (.inr (.inr rfl)))))).append (w ['b'] ' ' (objName (by decide +kernel)) (.inl rfl))
    have h2 := h1.chunk [.word ['c']] ['c'] (by
      have hn : ObjName ['c'] := objName (by decide +kernel)
      have := Toks.word (g := []) (w := ['c']) (ts := []) (s := []) .nil hn.ne hn.head hn.all (by decide +kernel) (.nil .nil)
      simpa using this)
    have e : [(⟨['a'], none, [.line (.plain .sep [])]⟩ : TDef)].flatMap TDef.toks ++ .word ['b'] :: [.word ['c']] =
        [.word ['a'], .sign '{', .sign '-', kw "LINE", .sign '}', .word ['b'], .word ['c']] := rfl
    rw [e]
    simpa using h2
  obtain ⟨db, h1, _, h2⟩ := C52_failed (cv := same) (valid := any) (ts := [{ newTab any 2 with lines := [⟨111, 0, false, []⟩] }])
    (t := "a {- LINE }b c".toList) (by rw [hk]; exact hl) (tblName (objName (by decide +kernel)) (by decide +kernel))
    (by
      intro t ht
      cases ht
      exact ⟨by simp, fun v hv => by cases hv; exact tblName (objName (by decide +kernel)) (by decide +kernel)⟩)
    (by decide +kernel) (by
      intro d hd
      rw [List.mem_singleton.1 hd]
      exact ⟨⟨objName (by decide +kernel), by decide +kernel⟩, by decide, by intro e he; rw [List.mem_singleton.1 he]; trivial⟩) (by
      intro d hd e he
      rw [List.mem_singleton.1 hd] at he
      rw [List.mem_singleton.1 he]
      trivial) (List.Forall₂.cons (a := (⟨['a'], none, [.line (.plain .sep [])]⟩ : TDef)) ⟨by decide +kernel, rfl, rfl, .inl ⟨rfl, rfl⟩, .inl ⟨rfl, rfl⟩, .inl ⟨rfl, rfl⟩, .inl ⟨rfl, rfl⟩, .inr ⟨.inl rfl, rfl⟩,
        .inr ⟨.inl rfl, rfl⟩, .inr ⟨.inl rfl, rfl⟩, .inr ⟨.inl rfl, rfl⟩, .inl ⟨rfl, rfl⟩, .cons ⟨rfl, rfl, rfl, rfl⟩ .nil, rfl, rfl, rfl⟩ .nil)
  refine ⟨db, h1, ?_⟩
  rw [h2]
  decide +kernel

/-! ## Where this fails -/

/-- A table that is not closed is read forever: the end of the file is skipped like any other element. -/
theorem C52_endless_counterexample (cv : Conv) (valid : Yy.Text → Bool) :
    (∀ n t, tblLoop cv valid n t ⟨.eof, false, []⟩ = .err) ∧
    lxs tblKeys ⟨.err, false, []⟩ = .ok (.raw .eof, ⟨.eof, false, []⟩) ∧ loadTbls cv valid ['A', ' ', '{'] = .err := by
  refine ⟨?_, rfl, by rfl⟩
  intro n
  induction n with
  | zero => intro t; rfl
  | succ n ih => intro t; exact ih t

/-- A table whose name is a key word is written but not found when it is read. -/
theorem C52_name_counterexample : checkName .tables ['D', 'A', 'T', 'E'] = true ∧
    ∃ x, saveTbls same [(['D', 'A', 'T', 'E'], newTab any 1)] = .ok (true, x) ∧ loadTbls same any x = .ok (.good (), []) := by
  refine ⟨by decide +kernel, ((match saveTbls same [(['D', 'A', 'T', 'E'], newTab any 1)] with | .ok r => r.2 | _ => [])), ?_⟩
  decide +kernel

/-- The text of a table with these lines. -/
def save1 (t : Tab) : Yy.Text := match saveTbls same [(['A'], t)] with | .ok r => r.2 | _ => []

/-- A negative number is written with a sign, that starts a line when it is read. -/
theorem C52_sign_counterexample :
    loadTbls same any (save1 { newTab any 1 with box := -1 }) =
      .ok (.good (), [(['A'], { newTab any 1 with lines := [⟨110, 0, false, [newCell]⟩] })]) := by decide +kernel

/-- Quotes at the ends of a text are lost, one at each end each time. -/
theorem C52_quotes_counterexample :
    loadTbls same any (save1 { newTab any 1 with lines := [⟨113, 0, false, [⟨.str ['"', '"', 'a', '"'], 16⟩]⟩] }) =
      .ok (.good (), [(['A'], { newTab any 1 with lines := [⟨113, 0, false, [⟨.str ['"', 'a'], 16⟩]⟩] })]) ∧
    loadTbls same any (save1 { newTab any 1 with lines := [⟨113, 0, false, [⟨.str ['"', 'a'], 16⟩]⟩] }) =
      .ok (.good (), [(['A'], { newTab any 1 with lines := [⟨113, 0, false, [⟨.str ['a'], 16⟩]⟩] })]) ∧
    loadTbls same any (save1 { newTab any 1 with lines := [⟨113, 0, false, [⟨.str ['"'], 16⟩]⟩] }) = .ub :=
  ⟨by decide +kernel, by decide +kernel, by decide +kernel⟩

/-- A separator in bold becomes a separator. -/
theorem C52_bold_counterexample :
    loadTbls same any (save1 { newTab any 1 with lines := [⟨112, 0, false, []⟩] }) =
      .ok (.good (), [(['A'], { newTab any 1 with lines := [⟨111, 0, false, []⟩] })]) := by decide +kernel

/-- An infinite bound is lost. -/
theorem C52_infinity_counterexample : isNumber .inf = true ∧
    loadTbls same any (save1 { newTab any 1 with ymax := .inf }) = .ok (.good (), [(['A'], newTab any 1)]) := by decide +kernel

/-- A formula that is a title can not be read. -/
theorem C52_title_counterexample :
    loadTbls same any (save1 { newTab any 1 with lines := [⟨113, 0, false, [⟨.lec (some ['X']), 16⟩]⟩] }) = .ub := by decide +kernel

/-- An axis before the cells of a line. -/
theorem C52_order_counterexample : loadTbls same any "A { - LAXIS \"x\" \"y\" }".toList = .ub := by decide +kernel

/-- A text that can not be converted: what was written up to there is a table that is not closed, which is read forever. -/
theorem C52_thrown_counterexample :
    saveTbls ⟨fun _ => none, some⟩ [(['A'], newTab any 1)] =
      .ok (false, "A {\nDIM 1\nENGLISH \nBOX 0 AXIS 0 XGRID 0 YGRID 0 \nALIGN LEFT \nDIV ".toList) ∧
    loadTbls same any "A {\nDIM 1\nENGLISH \nBOX 0 AXIS 0 XGRID 0 YGRID 0 \nALIGN LEFT \nDIV ".toList = .err := by decide +kernel

/-- A stray word between two cells: the cells behind it are empty and their texts are lost. -/
theorem C52_stray_counterexample : loadTbls same any "A { DIM 2 - \"x\" w \"y\" }".toList =
    .ok (.good (), [(['A'], { newTab any 2 with lines := [⟨110, 0, false, [⟨.str ['x'], 16⟩, ⟨.str [], 16⟩]⟩] })]) := by decide +kernel

/-- A line without cells is an empty title; a line at the end of the file is no error by itself. -/
example : loadTbls same any "A { DIM 1 - - \"x\" }".toList = .ok (.good (), [(['A'], { newTab any 1 with
      lines := [⟨113, 0, false, [⟨.str [], 16⟩]⟩, ⟨110, 0, false, [⟨.str ['x'], 16⟩]⟩] })]) ∧
    loadTbls same any "A { DIM 1 -".toList = .err := by decide +kernel

/-- The tables before a failure are kept. -/
example : loadTbls same any "A { DIM 1 } B x".toList = .ok (.bad, [(['A'], newTab any 1)]) := by decide +kernel

end Tables
end Asc
end Iode
