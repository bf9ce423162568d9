import Verif.Model.ModelCmd
import Verif.Props.C64
import Verif.Props.C74

/-!
# C88: the commands on models and identities read their arguments as written
-/
namespace Iode.ModelCmd

open Iode.Args (Text Fit pieces Usual Means Short value)
open Iode.DataCmd (left bseps tabs)
open Iode.DataCmd.Written

/-! ## What is written -/

/-- Blanks between words. -/
def Blanks (s : Text) : Prop := ∀ c ∈ s, c = ' ' ∨ c = '\t' ∨ c = '\n'

/-- A word: no blanks and no commas. -/
def Bare (w : Text) : Prop := w ≠ [] ∧ ∀ c ∈ w, isSpaceC c = false ∧ c ≠ ','

/-- What is behind a word: nothing, or a separator first. -/
def Ends (r : Text) : Prop := ∀ c, r.head? = some c → c ∈ [' ', ',', '\n', '\t']

/-- An argument that is the two words, with blanks in front and between, and `r` behind. -/
def Two (arg a b r : Text) : Prop :=
  ∃ s t : Text, arg = s ++ (a ++ (t ++ (b ++ r))) ∧ Blanks s ∧ Blanks t ∧ t ≠ [] ∧ Bare a ∧ Bare b ∧ a.length ≤ 14 ∧ b.length ≤ 14 ∧ Ends r

/-- The lists of the workspace can be read: no quotes, and words that have room. -/
def Readable (W : Args.World) : Prop :=
  W.sp = Args.seps ∧ ∀ x t, W.look x = some t → Fit Args.seps t ∧ ∀ w ∈ pieces Args.seps t, Short w

/-- The text can be read. -/
def Plain (r : Text) : Prop := Fit Args.seps r ∧ ∀ w ∈ pieces Args.seps r, Short w

/-! ## Words -/

theorem tabs_append (a b : Text) : tabs (a ++ b) = tabs a ++ tabs b := List.map_append

theorem tabs_tabs (a : Text) : tabs (tabs a) = tabs a := by
  unfold tabs
  rw [List.map_map]
  refine List.map_congr_left fun c _ => ?_
  by_cases h : c = '\t' <;> simp [h]

theorem tabs_bare {w : Text} (h : Bare w) : tabs w = w := by
  unfold tabs
  conv => rhs; rw [← List.map_id w]
  refine List.map_congr_left fun c hc => ?_
  rw [if_neg]
  · rfl
  · rintro rfl
    exact absurd (h.2 _ hc).1 (by decide)

theorem tabs_ends {r : Text} (h : Ends r) : Ends (tabs r) := by
  cases r with
  | nil => exact h
  | cons c r =>
    intro d hd
    have hc := h c rfl
    simp only [tabs, List.map_cons, List.head?_cons, Option.some.injEq] at hd
    subst hd
    by_cases e : c = '\t'
    · simp [e]
    · rw [if_neg e]; exact hc

theorem tabs_blanks {s : Text} (h : Blanks s) : Blanks (tabs s) := by
  intro c hc
  obtain ⟨d, hd, rfl⟩ := List.mem_map.mp hc
  rcases h d hd with rfl | rfl | rfl <;> decide

theorem blank_space {c : Char} (h : c = ' ' ∨ c = '\t' ∨ c = '\n') : isSpaceC c = true := by
  rcases h with rfl | rfl | rfl <;> decide

theorem drop_blanks {s w : Text} (hs : ∀ c ∈ s, isSpaceC c = true) (hw : Bare w) (r : Text) : (s ++ (w ++ r)).dropWhile isSpaceC = w ++ r := by
  induction s with
  | nil =>
    cases w with
    | nil => exact absurd rfl hw.1
    | cons c w => rw [List.nil_append, List.cons_append, List.dropWhile_cons_of_neg (by simp [(hw.2 c (by simp)).1])]
  | cons c s ih => rw [List.cons_append, List.dropWhile_cons_of_pos (hs c (by simp)), ih fun d hd => hs d (by simp [hd])]

theorem take_word {w r : Text} (hw : ∀ c ∈ w, c ∉ bseps) (hr : Ends r) {n : Nat} (hn : w.length ≤ n) :
    ((w ++ r).take n).takeWhile (· ∉ bseps) = w := by
  rw [List.take_append, List.take_of_length_le hn]
  have h1 : ∀ u : Text, (∀ c, u.head? = some c → c ∈ bseps) → u.takeWhile (· ∉ bseps) = [] := by
    intro u hu
    cases u with
    | nil => rfl
    | cons c u => rw [List.takeWhile_cons_of_neg]; simpa using hu c rfl
  rw [List.takeWhile_append_of_pos (by simpa using hw), h1, List.append_nil]
  intro c hc
  refine hr c ?_
  cases r with
  | nil => simp at hc
  | cons d r =>
    cases hk : n - w.length with
    | zero => rw [hk] at hc; simp at hc
    | succ k => rw [hk] at hc; simpa using hc

theorem bare_seps {w : Text} (h : Bare w) : ∀ c ∈ w, c ∉ bseps := by
  intro c hc hm
  obtain ⟨h1, h2⟩ := h.2 c hc
  simp only [bseps, List.mem_cons, List.not_mem_nil, or_false] at hm
  rcases hm with rfl | rfl | rfl | rfl
  · exact absurd h1 (by decide)
  · exact h2 rfl
  · exact absurd h1 (by decide)
  · exact absurd h1 (by decide)

/-- The first word is read, however many blanks are in front of it. -/
theorem word_read {s w r : Text} (hs : Blanks s) (hw : Bare w) (hr : Ends r) {n : Nat} (hn : w.length < n) :
    word n (s ++ (w ++ r)) = (w, tabs r) := by
  have hl : left (s ++ (w ++ r)) = w ++ tabs r := by
    unfold left
    have e : (s ++ (w ++ r)).map (fun c => if c = '\t' then ' ' else c) = tabs s ++ (w ++ tabs r) := by
      show tabs _ = _
      rw [tabs_append, tabs_append, tabs_bare hw]
    simp only [e]
    rw [drop_blanks (fun c hc => blank_space (tabs_blanks hs c hc)) hw, if_neg (by simp [hw.1])]
  unfold word
  simp only [hl]
  rw [take_word (bare_seps hw) (tabs_ends hr) (by omega), List.drop_left]

/-- Words one behind the other. -/
theorem word_next {t w r : Text} (ht : Blanks t) (hw : Bare w) (hr : Ends r) {n : Nat} (hn : w.length < n) :
    word n (tabs (t ++ (w ++ r))) = (w, tabs r) := by
  rw [tabs_append, tabs_append, tabs_bare hw, word_read (tabs_blanks ht) hw (tabs_ends hr) hn, tabs_tabs]

theorem blanks_end {t : Text} (h : Blanks t) (h0 : t ≠ []) (u : Text) : Ends (t ++ u) := by
  cases t with
  | nil => exact absurd rfl h0
  | cons c t =>
    intro d hd
    simp only [List.cons_append, List.head?_cons, Option.some.injEq] at hd
    subst hd
    rcases h c (by simp) with rfl | rfl | rfl <;> decide

theorem two_read {arg a b r : Text} (h : Two arg a b r) : (word 15 arg).1 = a ∧ word 15 (word 15 arg).2 = (b, tabs r) := by
  obtain ⟨s, t, rfl, hs, ht, h0, ha, hb, la, lb, hr⟩ := h
  have h1 := word_read (n := 15) hs ha (blanks_end ht h0 (b ++ r)) (by omega)
  have h2 := word_next (n := 15) ht hb hr (by omega)
  rw [h1]
  exact ⟨rfl, h2⟩

theorem periods_two {arg a b r : Text} (h : Two arg a b r) :
    periods arg = match Sample.ofStrings a b with | .ok s => .ok (some (s, tabs r)) | .err => .ok none | .ub => .ub := by
  obtain ⟨h1, h2⟩ := two_read h
  unfold periods
  simp only [h1, h2]
  cases Sample.ofStrings a b <;> rfl

/-! ## Names -/

theorem pieces_tabs (t : Text) : pieces Args.seps (tabs t) = pieces Args.seps t := by
  have h := DataCmd.words_tabs (fun c => if c = '\t' then ' ' else c) (seps := Args.seps) (by
    intro c
    constructor
    · intro hc
      rw [if_neg]
      rintro rfl
      exact hc (by decide)
    · intro hc
      by_cases e : c = '\t'
      · rw [if_pos e]; decide
      · rw [if_neg e]; exact hc) t
  exact h

theorem init_tabs {W : Args.World} (hW : Readable W) {r : Text} (hr : Plain r) : Args.init W (tabs r) = .ok (value W 10 (pieces Args.seps r)) := by
  obtain ⟨h1, h2⟩ := hW
  have hq : '"' ∉ tabs r := by
    intro hm
    obtain ⟨d, hd, e⟩ := List.mem_map.mp hm
    by_cases ht : d = '\t'
    · rw [if_pos ht] at e; exact absurd e (by decide)
    · rw [if_neg ht] at e; exact hr.1.1 (e ▸ hd)
  have := Args.C64_exact (W := W) (by rw [h1]; exact LstCalc.usual_seps) (fun x t h => by rw [h1]; exact (h2 x t h).1)
    (fun x t h => by rw [h1]; exact (h2 x t h).2) (t := tabs r) (by rw [h1]; exact ⟨hq, by rw [pieces_tabs]; exact hr.1.2⟩)
    (by rw [h1, pieces_tabs]; exact hr.2)
  rw [this, h1, pieces_tabs]

/-- C88. `$ModelSimulate from to names`: a pair of words that is no sample is refused, as is a list that does not exist; otherwise the equations with these names, lists replaced, are
simulated over that sample, and all of them when there is no name. -/
theorem C88_simulate {W : Args.World} (hW : Readable W) {arg a b r : Text} (h : Two arg a b r) (hr : Plain r) :
    (Sample.ofStrings a b = .err → simulateArgs W arg = .ok none) ∧
    (∀ s, Sample.ofStrings a b = .ok s →
      (value W 10 (pieces Args.seps r) = none → simulateArgs W arg = .ok none) ∧
      (pieces Args.seps r = [] → simulateArgs W arg = .ok (some (.all s))) ∧
      (∀ n ns, value W 10 (pieces Args.seps r) = some (n :: ns) → simulateArgs W arg = .ok (some (.only s (n :: ns))))) := by
  have hp := periods_two h
  have hi := init_tabs hW hr
  constructor
  · intro e
    rw [e] at hp
    unfold simulateArgs
    rw [hp]
  · intro s e
    rw [e] at hp
    unfold simulateArgs
    rw [hp]
    simp only [hi]
    refine ⟨fun hv => ?_, fun hv => ?_, fun n ns hv => ?_⟩
    · rw [hv]
    · rw [hv]
      have : value W 10 [] = some [] := by simp [value]
      rw [this]
    · rw [hv]

/-- C88. `$IdtExecute from to names`: a pair of words that is no sample is refused; otherwise the identities with these names, lists replaced, are computed over that sample, and all of
them when there is no name.  Missing: a list that does not exist is not refused (`C88_unknown_list_counterexample`). -/
theorem C88_identities_partial {W : Args.World} (hW : Readable W) {arg a b r : Text} (h : Two arg a b r) (hr : Plain r) :
    (Sample.ofStrings a b = .err → idtArgs W arg = .ok none) ∧
    (∀ s, Sample.ofStrings a b = .ok s →
      (pieces Args.seps r = [] → idtArgs W arg = .ok (some (.all s))) ∧
      (∀ n ns, value W 10 (pieces Args.seps r) = some (n :: ns) → idtArgs W arg = .ok (some (.only s (n :: ns))))) := by
  have hp := periods_two h
  have hi := init_tabs hW hr
  constructor
  · intro e
    rw [e] at hp
    unfold idtArgs
    rw [hp]
  · intro s e
    rw [e] at hp
    unfold idtArgs
    rw [hp]
    simp only [hi]
    refine ⟨fun hv => ?_, fun n ns hv => ?_⟩
    · rw [hv]
      have : value W 10 [] = some [] := by simp [value]
      rw [this]
    · rw [hv]

/-- With a list that does not exist `$IdtExecute` computes all the identities. -/
theorem C88_unknown_list_counterexample {W : Args.World} (hW : Readable W) {arg a b r : Text} (h : Two arg a b r) (hr : Plain r) {s : Sample}
    (hs : Sample.ofStrings a b = .ok s) {x : Text} (hx : '$' :: x ∈ pieces Args.seps r) (hl : W.look x = none) : idtArgs W arg = .ok (some (.all s)) := by
  have hv : Args.init W (tabs r) = .ok none := by
    rw [init_tabs hW hr]
    obtain ⟨h1, h2⟩ := hW
    have e1 := Args.C64_unknown (W := W) (by rw [h1]; exact LstCalc.usual_seps) (fun x t h => by rw [h1]; exact (h2 x t h).1)
      (fun x t h => by rw [h1]; exact (h2 x t h).2) (t := r) (by rw [h1]; exact hr.1) (by rw [h1]; exact hr.2) (by rw [h1]; exact hx) hl
    have e2 := Args.C64_exact (W := W) (by rw [h1]; exact LstCalc.usual_seps) (fun x t h => by rw [h1]; exact (h2 x t h).1)
      (fun x t h => by rw [h1]; exact (h2 x t h).2) (t := r) (by rw [h1]; exact hr.1) (by rw [h1]; exact hr.2)
    rw [h1] at e2
    rw [← e2, e1]
  have hp := periods_two h
  rw [hs] at hp
  unfold idtArgs
  rw [hp]
  simp only [hv]

/-- With lists that are empty both commands take all the equations or identities. -/
theorem C88_empty_list_counterexample {W : Args.World} (hW : Readable W) {arg a b r : Text} (h : Two arg a b r) (hr : Plain r) {s : Sample}
    (hs : Sample.ofStrings a b = .ok s) (hv : value W 10 (pieces Args.seps r) = some []) :
    simulateArgs W arg = .ok (some (.all s)) ∧ idtArgs W arg = .ok (some (.all s)) := by
  have hp := periods_two h
  have hi := init_tabs hW hr
  rw [hs] at hp
  rw [hv] at hi
  unfold simulateArgs idtArgs
  rw [hp]
  simp only [hi]
  exact ⟨trivial, trivial⟩

/-! ## Strongly connex components -/

/-- C88. `$ModelSimulateSCC from to pre inter post`: the three names are taken in this order, and all of them have to be lists. -/
theorem C88_simulate_scc {W : Args.World} (hW : Readable W) (known : Text → Bool) {arg a b r : Text} (h : Two arg a b r) (hr : Plain r) {s : Sample}
    (hs : Sample.ofStrings a b = .ok s) {ws : List Text} (hv : value W 10 (pieces Args.seps r) = some ws) (pre inter post : Text) :
    sccArgs W known arg = .ok (some (s, pre, inter, post)) ↔ ws = [pre, inter, post] ∧ known pre = true ∧ known inter = true ∧ known post = true := by
  have hp := periods_two h
  have hi := init_tabs hW hr
  rw [hs] at hp
  rw [hv] at hi
  unfold sccArgs
  rw [hp]
  simp only [hi]
  match ws with
  | [] => simp
  | [_] => simp
  | [_, _] => simp
  | [x, y, z] =>
    simp only [Bool.and_eq_true, List.cons.injEq, and_true]
    constructor
    · intro e
      split at e
      · rename_i hk
        simp only [Res.ok.injEq, Option.some.injEq, Prod.mk.injEq, true_and] at e
        obtain ⟨rfl, rfl, rfl⟩ := e
        exact ⟨⟨rfl, rfl, rfl⟩, hk.1.1, hk.1.2, hk.2⟩
      · simp at e
    · rintro ⟨⟨rfl, rfl, rfl⟩, h1, h2, h3⟩
      rw [if_pos ⟨⟨h1, h2⟩, h3⟩]
  | _ :: _ :: _ :: _ :: _ => simp

/-- The value of digits. -/
def value10 (ds : Text) : Nat := ds.foldl (fun a c => 10 * a + (c.toNat - 48)) 0

/-- A whole number that has room. -/
inductive Whole : Text → Int → Prop
  | plain {ds : Text} : ds ≠ [] → (∀ c ∈ ds, '0' ≤ c ∧ c ≤ '9') → value10 ds ≤ 2147483647 → Whole ds (value10 ds)
  | minus {ds : Text} : ds ≠ [] → (∀ c ∈ ds, '0' ≤ c ∧ c ≤ '9') → value10 ds ≤ 2147483648 → Whole ('-' :: ds) (-(value10 ds : Int))

theorem digit_bool {c : Char} (h : '0' ≤ c ∧ c ≤ '9') : isDigitC c = true := by
  obtain ⟨h1, h2⟩ := h
  have e1 : ('0' : Char).toNat ≤ c.toNat := h1
  have e2 : c.toNat ≤ ('9' : Char).toNat := h2
  have : ('0' : Char).toNat = 48 := rfl
  have : ('9' : Char).toNat = 57 := rfl
  unfold isDigitC
  simp
  omega

theorem take_digits {ds : Text} (h : ∀ c ∈ ds, '0' ≤ c ∧ c ≤ '9') : ds.takeWhile isDigitC = ds :=
  List.takeWhile_eq_self_iff.mpr fun c hc => digit_bool (h c hc)

theorem val_digits (ds : Text) : digitsVal 0 ds = value10 ds := rfl

theorem whole_val {w : Text} {k : Int} (h : Whole w k) : Report.atoi w = some k := by
  cases h with
  | plain h0 hd hl =>
    match w, h0 with
    | c :: ds, _ =>
      have hc := digit_bool (hd c (by simp))
      have n1 : c ≠ '-' := by rintro rfl; revert hc; decide
      have n2 : c ≠ '+' := by rintro rfl; revert hc; decide
      have hsp : Report.isSpace c = false := by
        cases hs : Report.isSpace c
        · rfl
        · exfalso
          unfold Report.isSpace at hs
          unfold isDigitC at hc
          simp at hs hc
          rcases hs with ((((rfl | rfl) | rfl) | rfl) | hs) | hs
          all_goals first
            | (revert hc; decide)
            | omega
      unfold Report.atoi
      rw [List.dropWhile_cons_of_neg (by simp [hsp])]
      split
      · rename_i hh; simp at hh; exact absurd hh.1 n1
      · rename_i hh; simp at hh; exact absurd hh.1 n2
      · simp only []
        rw [take_digits hd, val_digits, if_pos hl]
  | minus h0 hd hl =>
    unfold Report.atoi
    rw [List.dropWhile_cons_of_neg (by decide)]
    simp only []
    rw [take_digits hd, val_digits, if_pos hl]

/-- A text that neither begins nor ends with a blank, and has no tabs. -/
def Tight (e : Text) : Prop := (∀ c, e.head? = some c ∨ e.getLast? = some c → isSpaceC c = false) ∧ '\t' ∉ e

theorem drop_front {t e : Text} (ht : ∀ c ∈ t, isTrimC c = true) (he : ∀ c, e.head? = some c → isTrimC c = false) : (t ++ e).dropWhile isTrimC = e := by
  induction t with
  | nil =>
    cases e with
    | nil => rfl
    | cons c e => rw [List.nil_append, List.dropWhile_cons_of_neg (by simp [he c rfl])]
  | cons c t ih => rw [List.cons_append, List.dropWhile_cons_of_pos (ht c (by simp)), ih fun d hd => ht d (by simp [hd])]

theorem trim_mid {t e u : Text} (ht : ∀ c ∈ t, isTrimC c = true) (hu : ∀ c ∈ u, isTrimC c = true)
    (he : ∀ c, e.head? = some c ∨ e.getLast? = some c → isTrimC c = false) : trim (t ++ (e ++ u)) = e := by
  unfold trim
  cases e with
  | nil =>
    have h1 : (t ++ ([] ++ u)).dropWhile isTrimC = [] := by
      rw [List.dropWhile_eq_nil_iff]
      intro c hc
      rw [List.nil_append, List.mem_append] at hc
      exact hc.elim (ht c) (hu c)
    rw [h1]
    rfl
  | cons c e =>
    rw [drop_front ht (by intro d hd; exact he d (Or.inl hd)), List.reverse_append, drop_front (fun d hd => hu d (List.mem_reverse.mp hd)), List.reverse_reverse]
    intro d hd
    rw [List.head?_reverse] at hd
    exact he d (Or.inr hd)

/-- C88. `$ModelCalcSCC n pre inter post eqs`: the number of passes (0 for a negative one), the three names in this order, and the equations behind them, as written; no text at all
stands for all the equations. -/
theorem C88_calc_scc {s0 s1 s2 s3 s4 s5 n pre inter post eqs : Text} {k : Int} (b0 : Blanks s0) (b1 : Blanks s1) (b2 : Blanks s2) (b3 : Blanks s3)
    (b4 : Blanks s4) (b5 : Blanks s5) (n1 : s1 ≠ []) (n2 : s2 ≠ []) (n3 : s3 ≠ []) (n4 : eqs ≠ [] → s4 ≠ []) (hn : Bare n) (ln : n.length ≤ 14) (hk : Whole n k)
    (h1 : Bare pre) (h2 : Bare inter) (h3 : Bare post) (l1 : pre.length ≤ 19) (l2 : inter.length ≤ 19) (l3 : post.length ≤ 19) (he : Tight eqs) :
    calcArgs (s0 ++ (n ++ (s1 ++ (pre ++ (s2 ++ (inter ++ (s3 ++ (post ++ (s4 ++ (eqs ++ s5)))))))))) = .ok (some ⟨max 0 k, pre, inter, post, eqs⟩) := by
  have hr : Ends (s4 ++ (eqs ++ s5)) := by
    by_cases h4 : s4 = []
    · have h0 : eqs = [] := by
        by_contra h
        exact n4 h h4
      rw [h4, h0, List.nil_append, List.nil_append]
      by_cases h5 : s5 = []
      · rw [h5]; intro c hc; cases hc
      · have := blanks_end b5 h5 []
        rwa [List.append_nil] at this
    · exact blanks_end b4 h4 _
  have htr : trim (tabs (s4 ++ (eqs ++ s5))) = eqs := by
    have ht : tabs eqs = eqs := by
      unfold tabs
      conv => rhs; rw [← List.map_id eqs]
      refine List.map_congr_left fun c hc => ?_
      rw [if_neg]
      · rfl
      · rintro rfl
        exact he.2 hc
    rw [tabs_append, tabs_append, ht]
    exact trim_mid (fun c hc => blank_space (tabs_blanks b4 c hc)) (fun c hc => blank_space (tabs_blanks b5 c hc)) he.1
  unfold calcArgs
  simp only []
  rw [word_read b0 hn (blanks_end b1 n1 _) (by omega)]
  simp only []
  rw [word_next b1 h1 (blanks_end b2 n2 _) (by omega)]
  simp only []
  rw [word_next b2 h2 (blanks_end b3 n3 _) (by omega)]
  simp only []
  rw [word_next b3 h3 hr (by omega)]
  simp only [whole_val hk, htr]
  rw [if_neg]
  rintro (e | e | e)
  · exact h1.1 e
  · exact h2.1 e
  · exact h3.1 e

theorem word_blanks {s : Text} (h : Blanks s) (n : Nat) : (word n (tabs s)).1 = [] ∧ (word n (tabs s)).2 = tabs s := by
  have hl : left (tabs s) = tabs s := by
    unfold left
    have e : (tabs s).map (fun c => if c = '\t' then ' ' else c) = tabs s := tabs_tabs s
    simp only [e]
    rw [if_pos]
    rw [List.dropWhile_eq_nil_iff]
    exact fun c hc => blank_space (tabs_blanks h c hc)
  have hw : ((tabs s).take (n - 1)).takeWhile (· ∉ bseps) = [] := by
    have hb := tabs_blanks h
    generalize tabs s = u at hb
    cases u with
    | nil => simp
    | cons c u =>
      cases n - 1 with
      | zero => rfl
      | succ k =>
        rw [List.take_succ_cons, List.takeWhile_cons_of_neg]
        rcases hb c (by simp) with rfl | rfl | rfl <;> decide
  unfold word
  simp only [hl, hw]
  exact ⟨trivial, rfl⟩

/-- Without three names the command is refused. -/
theorem C88_calc_scc_refused {s0 s1 s2 s3 n pre inter : Text} {k : Int} (b0 : Blanks s0) (b1 : Blanks s1) (b2 : Blanks s2) (b3 : Blanks s3)
    (n1 : s1 ≠ []) (n2 : s2 ≠ []) (hn : Bare n) (ln : n.length ≤ 14) (hk : Whole n k) (h1 : Bare pre) (h2 : Bare inter) (l1 : pre.length ≤ 19) (l2 : inter.length ≤ 19) :
    calcArgs (s0 ++ (n ++ (s1 ++ (pre ++ (s2 ++ (inter ++ s3)))))) = .ok none ∧ calcArgs (s0 ++ (n ++ (s1 ++ (pre ++ s2)))) = .ok none ∧
      calcArgs (s0 ++ (n ++ s1)) = .ok none := by
  have hb : ∀ {s : Text}, Blanks s → Ends s := by
    intro s hs
    by_cases h0 : s = []
    · rw [h0]; intro c hc; cases hc
    · have := blanks_end hs h0 []
      rwa [List.append_nil] at this
  refine ⟨?_, ?_, ?_⟩
  · unfold calcArgs
    simp only []
    rw [word_read b0 hn (blanks_end b1 n1 _) (by omega)]
    simp only []
    rw [word_next b1 h1 (blanks_end b2 n2 _) (by omega)]
    simp only []
    rw [word_next b2 h2 (hb b3) (by omega)]
    simp only [whole_val hk]
    rw [if_pos (Or.inr (Or.inr (word_blanks b3 20).1))]
  · unfold calcArgs
    simp only []
    rw [word_read b0 hn (blanks_end b1 n1 _) (by omega)]
    simp only []
    rw [word_next b1 h1 (hb b2) (by omega)]
    simp only [whole_val hk]
    rw [if_pos (Or.inr (Or.inl (word_blanks b2 20).1))]
  · unfold calcArgs
    simp only []
    rw [word_read b0 hn (hb b1) (by omega)]
    simp only [whole_val hk]
    rw [if_pos (Or.inl (word_blanks b1 20).1)]

/-! ## Parameters -/

/-- The order a word stands for: 0 components, 1 components and triangulation, 2 none. -/
inductive Order : Text → Nat → Prop
  | connex {c r} : c ∈ ['C', 'c'] → Order (c :: r) 0
  | both {c r} : c ∈ ['T', 't', 'B', 'b'] → Order (c :: r) 1
  | none {c r} : c ∈ ['N', 'n'] → Order (c :: r) 2

inductive Answer : Text → Nat → Prop
  | no {c r} : c ∈ ['N', 'n'] → Answer (c :: r) 0
  | yes {c r} : c ∈ ['Y', 'y'] → Answer (c :: r) 1

/-- The starting values are written as a digit. -/
inductive Start : Text → Int → Prop
  | digit (k : Fin 10) : Start [Char.ofNat (48 + k.val)] k.val

theorem order_val {w : Text} {k : Nat} (h : Order w k) : sortOf w = k := by
  cases h with
  | connex h => simp only [List.mem_cons, List.not_mem_nil, or_false] at h; rcases h with rfl | rfl <;> rfl
  | both h => simp only [List.mem_cons, List.not_mem_nil, or_false] at h; rcases h with rfl | rfl | rfl | rfl <;> rfl
  | none h => simp only [List.mem_cons, List.not_mem_nil, or_false] at h; rcases h with rfl | rfl <;> rfl

theorem answer_val {w : Text} {k : Nat} (h : Answer w k) : argpos ['N', 'Y'] w = k := by
  cases h with
  | no h => simp only [List.mem_cons, List.not_mem_nil, or_false] at h; rcases h with rfl | rfl <;> rfl
  | yes h => simp only [List.mem_cons, List.not_mem_nil, or_false] at h; rcases h with rfl | rfl <;> rfl

theorem start_val {w : Text} {k : Int} (h : Start w k) : ((w.headD '\x00').toNat : Int) - 48 = k := by
  cases h with
  | digit k =>
    revert k
    decide

/-- What is written behind the sixth parameter: the number of passes, and whether the steps of Newton's method are traced; what is not written is left (`n`) or off. -/
inductive More (n : Int) : List Text → Int → Nat → Prop
  | none : More n [] n 0
  | passes {w k} : Whole w k → More n [w] k 0
  | both {w k v d} (rest : List Text) : Whole w k → Answer v d → More n (w :: v :: rest) k d

theorem vtoms_pieces (arg : Text) : RepFn.vtoms bseps (arg.length + 1) arg = .ok (pieces bseps arg) := by
  rw [RepFn.vtoms_words bseps _ arg (by omega)]
  rfl

/-- C88. `$ModelSimulateParms eps relax maxit order start debug passes trace` sets each parameter to what is written. -/
theorem C88_parameters (p : Parms) {arg e r m s v d : Text} {rest : List Text} (ha : pieces [' ', ',', '\n', '\t'] arg = e :: r :: m :: s :: v :: d :: rest)
    {eps relax : Rat} {maxit start passes : Int} {sort debug trace : Nat} (he : Number e eps) (hr : Number r relax) (hm : Whole m maxit) (hs : Order s sort)
    (hv : Start v start) (hd : Answer d debug) (hrest : More p.passes rest passes trace) :
    parms p arg = .ok (some ⟨eps, relax, maxit, sort, start, debug, passes, trace⟩) := by
  unfold parms
  rw [vtoms_pieces, show bseps = [' ', ',', '\n', '\t'] from rfl, ha]
  simp only [DataCmd.number_val he, DataCmd.number_val hr, whole_val hm, order_val hs, start_val hv, answer_val hd]
  cases hrest with
  | none => rfl
  | passes h => simp only [whole_val h]
  | both rest h1 h2 => simp only [whole_val h1, answer_val h2]

/-- Fewer than six parameters are refused: none is set. -/
theorem C88_parameters_refused (p : Parms) {arg : Text} (ha : (pieces [' ', ',', '\n', '\t'] arg).length < 6) : parms p arg = .ok none := by
  unfold parms
  rw [vtoms_pieces, show bseps = [' ', ',', '\n', '\t'] from rfl]
  generalize pieces [' ', ',', '\n', '\t'] arg = ws at *
  match ws, ha with
  | [], _ => rfl
  | [_], _ => rfl
  | [_, _], _ => rfl
  | [_, _, _], _ => rfl
  | [_, _, _, _], _ => rfl
  | [_, _, _, _, _], _ => rfl
  | _ :: _ :: _ :: _ :: _ :: _ :: _, h => simp at h; omega

/-! ## Examples, and what is not as one expects -/

def old : Parms := ⟨1 / 1000, 1, 100, 1, 0, 0, 5, 0⟩

/-- Words that are no parameters are not refused: an order that does not exist is that of the components, and the start is what its character is. -/
theorem C88_wrong_words_counterexample :
    parms old "x 7 ten Random x Oui".toList = .ok (some ⟨0, 7, 0, 0, 72, 0, 5, 0⟩) := by decide +kernel

def world : Args.World where
  sp := Args.seps
  look x := if x = ['L'] then some ['B', ';', 'C'] else if x = ['E'] then some [] else none
  file _ := none

/-- A comma between the periods is not read. -/
theorem C88_comma_counterexample : simulateArgs world "2000Y1,2001Y1 A".toList = .ok none ∧ idtArgs world "2000Y1,2001Y1 A".toList = .ok none := by decide +kernel

/-- Names of more than 19 characters are cut, and what is left of them is the next name. -/
theorem C88_long_name_counterexample : calcArgs "3 abcdefghijklmnopqrstuvw inter post".toList =
    .ok (some ⟨3, "abcdefghijklmnopqrs".toList, "tuvw".toList, "inter".toList, "post".toList⟩) := by decide +kernel

theorem world_readable : Readable world := by
  refine ⟨rfl, fun x t h => ?_⟩
  simp only [world] at h
  split at h
  · cases h
    exact ⟨⟨by decide, by decide +kernel⟩, by unfold Short; decide +kernel⟩
  · split at h
    · cases h
      exact ⟨⟨by decide, by decide +kernel⟩, by unfold Short; decide +kernel⟩
    · cases h

theorem two_example (r : Text) (hr : Ends r) : Two (' ' :: "2000Y1 \t2005Y1".toList ++ r) "2000Y1".toList "2005Y1".toList r := by
  refine ⟨[' '], [' ', '\t'], ?_, ?_, ?_, by simp, ⟨?_, ?_⟩, ⟨?_, ?_⟩, ?_, ?_, hr⟩
  · have : ' ' :: "2000Y1 \t2005Y1".toList = [' '] ++ ("2000Y1".toList ++ ([' ', '\t'] ++ "2005Y1".toList)) := by decide +kernel
    rw [this]
    simp only [List.append_assoc]
  · unfold Blanks; decide
  · unfold Blanks; decide
  all_goals decide +kernel

example : simulateArgs world (' ' :: "2000Y1 \t2005Y1".toList ++ " A,$L".toList) = .ok (some (.only ⟨⟨2000, 1, 'Y'⟩, ⟨2005, 1, 'Y'⟩, 6⟩ [['A'], ['B'], ['C']])) := by
  refine ((C88_simulate world_readable (two_example " A,$L".toList ?_) ⟨⟨by decide, by decide +kernel⟩, by unfold Short; decide +kernel⟩).2 _ (by decide +kernel)).2.2 _ _
    (by rw [show pieces Args.seps " A,$L".toList = [['A'], ['$', 'L']] by decide +kernel]; simp [value, world, show pieces Args.seps ['B', ';', 'C'] = [['B'], ['C']] by decide +kernel, show pieces Args.seps [] = [] by decide +kernel])
  unfold Ends; decide +kernel

example : idtArgs world (' ' :: "2000Y1 \t2005Y1".toList ++ " $NO".toList) = .ok (some (.all ⟨⟨2000, 1, 'Y'⟩, ⟨2005, 1, 'Y'⟩, 6⟩)) := by
  refine C88_unknown_list_counterexample world_readable (two_example " $NO".toList ?_) ⟨⟨by decide, by decide +kernel⟩, by unfold Short; decide +kernel⟩ (by decide +kernel)
    (x := ['N', 'O']) (by decide +kernel) (by decide +kernel)
  unfold Ends; decide +kernel

example : idtArgs world (' ' :: "2000Y1 \t2005Y1".toList ++ " $E".toList) = .ok (some (.all ⟨⟨2000, 1, 'Y'⟩, ⟨2005, 1, 'Y'⟩, 6⟩)) := by
  refine (C88_empty_list_counterexample world_readable (two_example " $E".toList ?_) ⟨⟨by decide, by decide +kernel⟩, by unfold Short; decide +kernel⟩ (by decide +kernel)
    (by rw [show pieces Args.seps " $E".toList = [['$', 'E']] by decide +kernel]; simp [value, world, show pieces Args.seps ['B', ';', 'C'] = [['B'], ['C']] by decide +kernel, show pieces Args.seps [] = [] by decide +kernel])).2
  unfold Ends; decide +kernel

example : sccArgs world (fun _ => true) (' ' :: "2000Y1 \t2005Y1".toList ++ " A $L".toList) = .ok (some (⟨⟨2000, 1, 'Y'⟩, ⟨2005, 1, 'Y'⟩, 6⟩, ['A'], ['B'], ['C'])) := by
  refine (C88_simulate_scc world_readable _ (two_example " A $L".toList ?_) ⟨⟨by decide, by decide +kernel⟩, by unfold Short; decide +kernel⟩ (by decide +kernel)
    (ws := [['A'], ['B'], ['C']]) (by rw [show pieces Args.seps " A $L".toList = [['A'], ['$', 'L']] by decide +kernel]; simp [value, world, show pieces Args.seps ['B', ';', 'C'] = [['B'], ['C']] by decide +kernel, show pieces Args.seps [] = [] by decide +kernel]) _ _ _).mpr ⟨rfl, rfl, rfl, rfl⟩
  unfold Ends; decide +kernel

example : calcArgs "3  PRE \tINTER POST A* B ".toList = .ok (some ⟨3, "PRE".toList, "INTER".toList, "POST".toList, "A* B".toList⟩) := by
  have h := C88_calc_scc (s0 := []) (s1 := [' ', ' ']) (s2 := [' ', '\t']) (s3 := [' ']) (s4 := [' ']) (s5 := [' ']) (n := ['3']) (pre := ['P', 'R', 'E'])
    (inter := ['I', 'N', 'T', 'E', 'R']) (post := ['P', 'O', 'S', 'T']) (eqs := ['A', '*', ' ', 'B']) (k := 3) (by unfold Blanks; decide) (by unfold Blanks; decide)
    (by unfold Blanks; decide) (by unfold Blanks; decide) (by unfold Blanks; decide) (by unfold Blanks; decide) (by simp) (by simp) (by simp) (by simp)
    (by unfold Bare; decide) (by decide) (Whole.plain (ds := ['3']) (by simp) (by decide) (by decide)) (by unfold Bare; decide) (by unfold Bare; decide)
    (by unfold Bare; decide) (by decide) (by decide) (by decide) ⟨by rintro c (h | h) <;> cases h <;> rfl, by decide⟩
  exact h

example : calcArgs "3 PRE\tINTER ".toList = .ok none := by
  have h := (C88_calc_scc_refused (s0 := []) (s1 := [' ']) (s2 := ['\t']) (s3 := [' ']) (n := ['3']) (pre := ['P', 'R', 'E'])
    (inter := ['I', 'N', 'T', 'E', 'R']) (k := 3) (by unfold Blanks; decide) (by unfold Blanks; decide)
    (by unfold Blanks; decide) (by unfold Blanks; decide) (by simp) (by simp)
    (by unfold Bare; decide) (by decide) (Whole.plain (ds := ['3']) (by simp) (by decide) (by decide)) (by unfold Bare; decide) (by unfold Bare; decide)
    (by decide) (by decide)).1
  exact h

example : parms old "7e-1 1 100,Both 4 No 8 yes".toList = .ok (some ⟨7 / 10, 1, 100, 1, 4, 0, 8, 1⟩) := by
  have h := C88_parameters old (arg := "7e-1 1 100,Both 4 No 8 yes".toList) (e := ['7', 'e', '-', '1']) (r := ['1']) (m := ['1', '0', '0']) (s := ['B', 'o', 't', 'h'])
    (v := ['4']) (d := ['N', 'o']) (rest := [['8'], ['y', 'e', 's']]) (by decide +kernel)
    (.plain (.whole (i := ['7']) (by unfold Lec.Written.Digits Lec.Written.Digit; decide) (by simp) (.minus (d := ['1']) (Or.inl rfl) (by unfold Lec.Written.Digits Lec.Written.Digit; decide) (by simp))))
    (.plain (.whole (i := ['1']) (x := []) (by unfold Lec.Written.Digits Lec.Written.Digit; decide) (by simp) .none))
    (.plain (by simp) (by decide) (by decide)) (.both (by simp)) (.digit 4) (.no (by simp)) (.both [] (.plain (by simp) (by decide) (by decide)) (.yes (by simp)))
  rw [h]
  decide +kernel

example : parms old "0.001,0.7 100 Both 4 No 8 yes".toList = .ok (some ⟨1 / 1000, 7 / 10, 100, 1, 4, 0, 8, 1⟩) := by decide +kernel

end Iode.ModelCmd
