import Verif.Model.Export
import Verif.Spec.Export
import Verif.Lemmas.Import
import Verif.Lemmas.PrintfText
import Verif.Lemmas.Ascii
import Verif.Lemmas.DynAdj
import Verif.Lemmas.Overlap
import Verif.Props.C03

/-!
# Helper lemmas for the export (C73)
-/
namespace Iode
namespace Exp
open Yy Asc Printf Imp Lec.Written Asc.Written Decimals
open Written

/-! ## Reading lines and cells -/

theorem splitOn_cons {c : Char} {a : Yy.Text} (h : c ∉ a) (r : Yy.Text) : (a ++ c :: r).splitOn c = a :: r.splitOn c := by
  rw [List.splitOn, List.splitOnP_append_cons_of_forall_mem (by
    intro x hx
    have : x ≠ c := fun e => h (e ▸ hx)
    simpa using this) _ (by simp)]
  rfl

theorem splitOn_end {c : Char} {a : Yy.Text} (h : c ∉ a) : a.splitOn c = [a] := by
  rw [List.splitOn, List.splitOnP_eq_singleton]
  intro x hx
  have : x ≠ c := fun e => h (e ▸ hx)
  simpa using this

theorem splitOn_ne (c : Char) (a : Yy.Text) : a.splitOn c ≠ [] := by
  rw [List.splitOn]
  exact List.splitOnP_ne_nil _ _

theorem cells_cons {c : Char} {a : Yy.Text} (h : c ∉ a) (r : Yy.Text) : cells c (a ++ c :: r) = tidy a :: cells c r := by
  rw [cells, splitOn_cons h, List.dropLast_cons_of_ne_nil (splitOn_ne c r)]
  rfl

theorem cells_end {c : Char} {a : Yy.Text} (h : c ∉ a) : cells c a = [] := by
  rw [cells, splitOn_end h]
  rfl

theorem lines_cons {a : Yy.Text} (h : '\n' ∉ a) (r : Yy.Text) : lines (a ++ '\n' :: r) = a :: lines r := by
  rw [lines, splitOn_cons h, List.dropLast_cons_of_ne_nil (splitOn_ne _ r)]
  rfl

theorem lines_nil : lines [] = [] := by
  rw [lines, splitOn_end (by simp)]
  rfl

/-! ## Blanks -/

theorem tidy_blank (t : Yy.Text) : tidy (' ' :: t) = tidy t := by
  rw [tidy, tidy, List.dropWhile_cons_of_pos (by decide)]

theorem tidy_self {t : Yy.Text} (h : ∀ c ∈ t, 32 < c.toNat) : tidy t = t := by
  have hd : ∀ u : Yy.Text, (∀ c ∈ u, 32 < c.toNat) → (u.dropWhile fun c => decide (c.toNat ≤ 32)) = u := by
    intro u hu
    cases u with
    | nil => rfl
    | cons c u => rw [List.dropWhile_cons_of_neg]; have := hu c (by simp); simp; omega
  rw [tidy, hd t h, hd _ (fun c hc => h c (by simpa using hc)), List.reverse_reverse]

theorem strip_split (t : Yy.Text) : ∃ b, t = RepFn.stripText t ++ b ∧ ∀ c ∈ b, c.toNat ≤ 32 := by
  refine ⟨(t.reverse.takeWhile fun c => decide (c.toNat ≤ 32)).reverse, ?_, ?_⟩
  · rw [RepFn.stripText, ← List.reverse_append, List.takeWhile_append_dropWhile, List.reverse_reverse]
  · intro c hc
    have := List.mem_takeWhile_imp (List.mem_reverse.1 hc)
    simpa using this

theorem tidy_append {a b : Yy.Text} (hb : ∀ c ∈ b, c.toNat ≤ 32) : tidy (a ++ b) = tidy a := by
  have hd : ∀ (u v : Yy.Text), (∀ c ∈ u, c.toNat ≤ 32) → ((u ++ v).dropWhile fun c => decide (c.toNat ≤ 32)) = v.dropWhile fun c => decide (c.toNat ≤ 32) := by
    intro u v hu
    induction u with
    | nil => rfl
    | cons c u ih =>
      rw [List.cons_append, List.dropWhile_cons_of_pos (by simpa using hu c (by simp))]
      exact ih fun c hc => hu c (by simp [hc])
  induction a with
  | nil =>
    have := hd b [] hb
    rw [List.append_nil] at this
    rw [List.nil_append, tidy, this]
    rfl
  | cons x a ih =>
    by_cases hx : x.toNat ≤ 32
    · rw [tidy, tidy, List.cons_append, List.dropWhile_cons_of_pos (by simpa using hx), List.dropWhile_cons_of_pos (by simpa using hx)]
      exact ih
    · rw [tidy, tidy, List.cons_append, List.dropWhile_cons_of_neg (by simpa using hx), List.dropWhile_cons_of_neg (by simpa using hx),
        ← List.cons_append, List.reverse_append, hd _ _ (fun c hc => hb c (by simpa using hc))]

theorem tidy_strip (t : Yy.Text) : tidy (RepFn.stripText t) = tidy t := by
  obtain ⟨b, e, hb⟩ := strip_split t
  conv_rhs => rw [e]
  rw [tidy_append hb]

theorem mem_strip {t : Yy.Text} {c : Char} (h : c ∈ RepFn.stripText t) : c ∈ t := by
  obtain ⟨b, e, _⟩ := strip_split t
  rw [e]
  exact List.mem_append_left _ h

theorem cells_blank {c : Char} (hc : c ≠ ' ') (r : Yy.Text) : cells c (' ' :: r) = cells c r := by
  have : (' ' == c) = false := by simpa using fun e : ' ' = c => hc e.symm
  rw [cells, cells, List.splitOn, List.splitOn, List.splitOnP_cons_eq_if_modifyHead, this]
  have hne := List.splitOnP_ne_nil (fun x => x == c) r
  revert hne
  generalize List.splitOnP (fun x => x == c) r = l
  intro hne
  cases l with
  | nil => exact absurd rfl hne
  | cons a l =>
    cases l with
    | nil => rfl
    | cons b l =>
      simp only [Bool.false_eq_true, if_false, List.modifyHead_cons, List.dropLast_cons_cons, List.map_cons, tidy_blank]

/-! ## The characters of cells -/

/-- The characters of values and periods. -/
def Usual (c : Char) : Prop := NameCh c ∨ c ∈ ['+', '-', '.']

theorem mark_usual {c x : Char} (hc : Mark c) (hx : Usual x) : x ≠ c := by
  rintro rfl
  rcases hx with hx | hx
  · exact hc.2.1 hx
  · exact hc.2.2 hx

theorem usual_visible {x : Char} (hx : Usual x) : 32 < x.toNat := by
  rcases hx with hx | hx
  · rcases hx with h | h | h | h
    · unfold Upper at h; omega
    · unfold Lower at h; omega
    · unfold Digit at h; omega
    · subst h; decide
  · simp only [List.mem_cons, List.not_mem_nil, or_false] at hx
    rcases hx with rfl | rfl | rfl <;> decide

theorem usual_digits {d : Yy.Text} (h : Digits d) : ∀ c ∈ d, Usual c := fun c hc => .inl (.inr (.inr (.inl (h c hc))))

theorem usual_expo {x : Yy.Text} {e : Int} (h : Expo x e) : ∀ c ∈ x, Usual c := by
  have he : ∀ c : Char, c = 'e' ∨ c = 'E' → Usual c := by
    rintro c (rfl | rfl)
    · exact .inl (.inr (.inl (by decide)))
    · exact .inl (.inl (by decide))
  cases h with
  | none => simp
  | plain h1 h2 _ =>
    intro c hc
    rcases List.mem_cons.1 hc with rfl | hc
    · exact he _ h1
    · exact usual_digits h2 c hc
  | plus h1 h2 _ =>
    intro c hc
    rcases List.mem_cons.1 hc with rfl | hc
    · exact he _ h1
    · rcases List.mem_cons.1 hc with rfl | hc
      · exact .inr (by decide)
      · exact usual_digits h2 c hc
  | minus h1 h2 _ =>
    intro c hc
    rcases List.mem_cons.1 hc with rfl | hc
    · exact he _ h1
    · rcases List.mem_cons.1 hc with rfl | hc
      · exact .inr (by decide)
      · exact usual_digits h2 c hc

theorem usual_numeral {t : Yy.Text} {r : Rat} (h : Numeral t r) : ∀ c ∈ t, Usual c := by
  rcases h with h | h
  · exact usual_digits h.1
  · cases h with
    | whole h1 _ h2 _ =>
      intro c hc
      rcases List.mem_append.1 hc with hc | hc
      · exact usual_digits h1 c hc
      · exact usual_expo h2 c hc
    | point h1 h2 _ h3 =>
      intro c hc
      rcases List.mem_append.1 hc with hc | hc
      · exact usual_digits h1 c hc
      · rcases List.mem_cons.1 hc with rfl | hc
        · exact .inr (by decide)
        · rcases List.mem_append.1 hc with hc | hc
          · exact usual_digits h2 c hc
          · exact usual_expo h3 c hc

theorem usual_fmtG {P : Nat} (hP : 1 ≤ P) (q : Rat) : ∀ c ∈ fmtG P q, Usual c := by
  obtain ⟨t, h1, h2⟩ := fmtG_numeral hP q
  intro c hc
  rw [h2] at hc
  split at hc
  · rcases List.mem_cons.1 hc with rfl | hc
    · exact .inr (by decide)
    · exact usual_numeral h1 c hc
  · exact usual_numeral h1 c hc

theorem usual_inf : ∀ c ∈ ['i', 'n', 'f'], Usual c := by
  intro c hc
  refine .inl (.inr (.inl ?_))
  simp only [List.mem_cons, List.not_mem_nil, or_false] at hc
  rcases hc with rfl | rfl | rfl <;> decide

/-! ## Values -/

/-- The limit of the missing values. -/
def limit : Rat := roundD (-(10 ^ 37))

theorem value_chars {cf : Conf} {v : Dbl} (c : Char) (h : c ∈ value cf v) : Usual c ∨ c ∈ cf.na := by
  unfold value at h
  split at h
  · cases v with
    | num q =>
      simp only at h
      split at h
      · refine .inl (.inr ?_)
        simp only [List.mem_cons, List.not_mem_nil, or_false, or_self] at h
        subst h
        decide
      · exact .inl (usual_fmtG (by omega) q c h)
    | inf => exact .inl (usual_inf c h)
    | ninf => exact .inl (usual_inf c h)
    | nan => exact .inl (usual_inf c h)
  · exact .inr h

theorem sig_sign {P : Nat} (hP : 1 ≤ P) (q : Rat) : sig 10 P q < 0 ↔ q < 0 := by
  by_cases h0 : q = 0
  · subst h0
    simp [sig]
  · have hm := (mant_bounds (b := 10) (by omega) hP h0).1
    have hp : (0 : Rat) < mant 10 P q := by
      have : 0 < mant 10 P q := lt_of_lt_of_le (Nat.pos_of_ne_zero (by positivity)) hm
      exact_mod_cast this
    have hu : (0 : Rat) < (10 : Rat) ^ unit 10 P q := zpow_pos (by norm_num) _
    have := mul_pos hp hu
    rw [sig, if_neg h0]
    push_cast
    split
    · next h => simp only [h, iff_true]; linarith
    · next h => simp only [h, iff_false]; linarith

theorem fmtG_signed {P : Nat} (hP : 1 ≤ P) (q : Rat) : Signed (fmtG P q) (sig 10 P q) := by
  obtain ⟨t, h1, h2⟩ := fmtG_numeral hP q
  refine ⟨t, h1, ?_⟩
  rw [h2]
  by_cases h : q < 0
  · rw [if_pos h, if_pos ((sig_sign hP q).2 h)]
  · rw [if_neg h, if_neg (fun h' => h ((sig_sign hP q).1 h'))]

theorem value_shown {cf : Conf} {v : Dbl} (h : v ≠ .num limit) : Shown 8 limit cf.na v (value cf v) := by
  cases v with
  | num q =>
    unfold value isNumber
    by_cases hq : roundD (-(10 ^ 37)) ≤ q
    · have hne : limit ≠ q := fun e => h (by rw [e])
      have hlt : limit < q := lt_of_le_of_ne hq hne
      have hn : ¬ q ≤ roundD (-(10 ^ 37)) := not_le.2 hlt
      simp only [hq, decide_true, if_true, if_neg hn]
      exact .num hq (sig_nearest (by omega) (by omega) q) (fmtG_signed (by omega) q)
    · simp only [hq, decide_false, Bool.false_eq_true, if_false]
      exact .low (not_le.1 hq)
  | inf => exact .inf
  | ninf => exact .ninf
  | nan => exact .nan

/-! ## Settings -/

theorem take_self {t : Yy.Text} (h : t.length ≤ 10) : t.take 10 = t := List.take_of_length_le h

theorem setting_choice {usual g t : Yy.Text} (h : Choice usual g t) : setting g usual = t := by
  rcases h with ⟨rfl, rfl⟩ | ⟨h1, h2, h3, rfl⟩
  · rfl
  · have e : RepFn.stripText t = t := by
      refine DynAdj.strip_self ?_
      intro c hc
      exact h3 c (List.mem_of_getLast? hc)
    rw [setting, take_self h2, e, if_neg h1]

theorem conf_eq {c : Char} {na missing : Yy.Text} (hc : 32 < c.toNat) (h : Choice "#N/A".toList na missing) :
    conf na [c] = ⟨[c], missing⟩ := by
  rw [conf, setting_choice (usual := [' ']) (g := [c]) (t := [c]) (.inr ⟨by simp, by simp, by simpa using hc, rfl⟩)]
  congr 1
  exact setting_choice h

/-! ## Loops -/

theorem vec_ok (f : Yy.Text → Yy.Text) (cf : Conf) (vs : List Dbl) : vec f cf vs.length vs = .ok (vs.flatMap fun v => f (value cf v)) := by
  induction vs with
  | nil => rfl
  | cons v vs ih =>
    rw [List.length_cons, vec, ih]
    rfl

theorem texts_ok {α : Type} {f : α → Res Yy.Text} {g : α → Yy.Text} {es : List α} (h : ∀ e ∈ es, f e = .ok (g e)) :
    texts f es = .ok (es.flatMap g) := by
  induction es with
  | nil => rfl
  | cons e es ih =>
    rw [texts, h e (by simp), ih fun e he => h e (by simp [he])]
    rfl

/-- The variables that are chosen. -/
theorem chosen_renamed {rules : List Rule} (hp : Plain rules) {vars : List (Yy.Text × List Dbl)} {es : List (Yy.Text × Yy.Text × List Dbl)}
    (h : Renamed (Grep.Cut Grep.noCase) rules (vars.map fun e => (e.1, e)) es) :
    chosen rules vars = .ok (es.map fun e => (e.2.1, e.1, e.2.2)) := by
  induction vars generalizing es with
  | nil => cases h; rfl
  | cons x vars ih =>
    obtain ⟨w, vs⟩ := x
    rw [List.map_cons] at h
    cases h with
    | drop h1 h2 =>
      rw [chosen, change_chosen hp h1, ih h2]
      rfl
    | keep h1 h2 =>
      rw [chosen, change_chosen hp h1, ih h2]
      rfl

theorem renamed_mem {rules : List Rule} {vars : List (Yy.Text × List Dbl)} {es : List (Yy.Text × Yy.Text × List Dbl)}
    (h : Renamed (Grep.Cut Grep.noCase) rules (vars.map fun e => (e.1, e)) es) : ∀ e ∈ es, e.2 ∈ vars := by
  induction vars generalizing es with
  | nil => cases h; simp
  | cons x vars ih =>
    rw [List.map_cons] at h
    cases h with
    | drop _ h2 => intro e he; exact List.mem_cons_of_mem _ (ih h2 e he)
    | keep _ h2 =>
      intro e he
      rcases List.mem_cons.1 he with rfl | he
      · exact List.mem_cons_self
      · exact List.mem_cons_of_mem _ (ih h2 e he)

/-! ## Lines of cells -/

theorem cells_flat {α : Type} {c : Char} {f : α → Yy.Text} {xs : List α} (h : ∀ x ∈ xs, c ∉ f x) :
    cells c (xs.flatMap fun x => f x ++ [c]) = xs.map fun x => tidy (f x) := by
  induction xs with
  | nil => exact cells_end (by simp)
  | cons x xs ih =>
    rw [List.flatMap_cons, List.append_assoc, List.singleton_append, cells_cons (h x (by simp)), ih fun x hx => h x (by simp [hx])]
    rfl

theorem cells_flat_blank {α : Type} {c : Char} (hc : c ≠ ' ') {f : α → Yy.Text} {xs : List α} (h : ∀ x ∈ xs, c ∉ f x) :
    cells c (xs.flatMap fun x => f x ++ [c] ++ [' ']) = xs.map fun x => tidy (f x) := by
  induction xs with
  | nil => exact cells_end (by simp)
  | cons x xs ih =>
    rw [List.flatMap_cons, List.append_assoc, List.append_assoc, List.singleton_append, cells_cons (h x (by simp)), List.singleton_append,
      cells_blank hc, ih fun x hx => h x (by simp [hx])]
    rfl

theorem lines_flat {α : Type} {f : α → Yy.Text} {xs : List α} (h : ∀ x ∈ xs, '\n' ∉ f x) :
    lines (xs.flatMap fun x => f x ++ ['\n']) = xs.map f := by
  induction xs with
  | nil => exact lines_nil
  | cons x xs ih =>
    rw [List.flatMap_cons, List.append_assoc, List.singleton_append, lines_cons (h x (by simp)), ih fun x hx => h x (by simp [hx])]
    rfl

theorem split_flat {α : Type} {c : Char} {a : Yy.Text} {f : α → Yy.Text} {xs : List α} (ha : c ∉ a) (h : ∀ x ∈ xs, c ∉ f x) :
    (a ++ xs.flatMap fun x => c :: f x).splitOn c = a :: xs.map f := by
  induction xs generalizing a with
  | nil => rw [List.flatMap_nil, List.append_nil, splitOn_end ha]; rfl
  | cons x xs ih =>
    rw [List.flatMap_cons, List.cons_append, splitOn_cons ha, ih (h x (by simp)) fun x hx => h x (by simp [hx])]
    rfl

theorem not_mem_flat {α : Type} {c : Char} {f : α → Yy.Text} {xs : List α} (h : ∀ x ∈ xs, c ∉ f x) : c ∉ xs.flatMap f := by
  intro hc
  obtain ⟨x, hx, h'⟩ := List.mem_flatMap.1 hc
  exact h x hx h'

/-! ## Periods -/

theorem periodicity_name {c : Char} {nb : Int} (h : nbPeriodsPerYear c = .ok nb) : NameCh c := by
  by_cases hl : 97 ≤ c.toNat ∧ c.toNat ≤ 122
  · exact .inr (.inl hl)
  · have e : toUpperC c = c := by unfold toUpperC; rw [if_neg hl]
    unfold nbPeriodsPerYear at h
    split at h
    · cases h
    · unfold mapPeriodicities at h
      rw [e] at h
      split at h
      all_goals first
        | (left; unfold Upper; decide)
        | simp_all

theorem usual_int (i : Int) : ∀ c ∈ intToChars i, Usual c := by
  intro c hc
  unfold intToChars at hc
  split at hc
  · rcases List.mem_cons.1 hc with rfl | hc
    · exact .inr (by decide)
    · exact usual_digits (natToChars_digits _) c hc
  · exact usual_digits (natToChars_digits _) c hc

theorem usual_period {p : Period} {nb : Int} (h : nbPeriodsPerYear p.periodicity = .ok nb) : ∀ c ∈ p.toChars, Usual c := by
  intro c hc
  unfold Period.toChars at hc
  split at hc
  · cases hc
  · rcases List.mem_append.1 hc with hc | hc
    · rcases List.mem_append.1 hc with hc | hc
      · exact usual_int _ c hc
      · rw [List.mem_singleton.1 hc]
        exact .inl (periodicity_name h)
    · exact usual_int _ c hc

/-- The periods of a sample: as many as it has, visible characters only. -/
theorem periods_fair {smp : Sample} (h : smp.Fair) : ∃ ps, smp.listPeriods = .ok ps ∧ ps.length = smp.nb.toNat ∧
    periods smp = .ok (ps.map Period.toChars) ∧ ∀ p ∈ ps, ∀ c ∈ p.toChars, Usual c := by
  obtain ⟨nb, hnb, h1, h2⟩ := h.proper.wfs
  obtain ⟨ps, e1, e2, e3⟩ := Sample.listLoop_spec hnb h1 h2 smp.nb.toNat 0
  have hp := h.nb_pos
  refine ⟨ps, ?_, e2, ?_, ?_⟩
  · rw [Sample.listPeriods, if_neg (by omega), e1]
  · rw [periods, e1]
    rfl
  · intro p hp
    obtain ⟨i, hi, rfl⟩ := List.mem_iff_getElem.1 hp
    obtain ⟨q, hq, hs⟩ := e3 i (by omega)
    obtain ⟨q', hq', hper, _⟩ := Period.shift_spec hnb h1 h2 (0 + i)
    rw [hs] at hq'
    cases hq'
    rw [List.getElem?_eq_getElem hi] at hq
    cases hq
    exact usual_period (by rw [hper]; exact hnb)

end Exp
end Iode
