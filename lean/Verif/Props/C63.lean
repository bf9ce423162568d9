import Verif.Spec.Report
import Verif.Props.C62
import Verif.Lemmas.Names

/-!
# C63: the order in which the lines of reports are executed
-/
namespace Iode.Report
open Iode.Expand

variable {σ : Type}

/-! ## More steps do not change the result -/

theorem Out.bind_mono {α β : Type} {x y : Out α} {f f' : α → Out β} {r : Res β} (h1 : ∀ a, x = some a → y = some a)
    (h2 : ∀ a r, f a = some r → f' a = some r) (h : Out.bind x f = some r) : Out.bind y f' = some r := by
  cases hx : x with
  | none => rw [hx] at h; simp [Out.bind] at h
  | some a =>
    rw [h1 a hx]; rw [hx] at h
    cases a with
    | ok a => exact h2 a r h
    | err => exact h
    | ub => exact h

/-- Every run that ends with the first runner ends with the second one. -/
def Runner.Le (r1 r2 : Runner σ) : Prop := ∀ tbl g x, r1 tbl g = some x → r2 tbl g = some x

theorem reportExec_mono (S : Sys σ) {r1 r2 : Runner σ} (h : Runner.Le r1 r2) {g : Glob σ} {arg : Text} {x : Res (Glob σ × Int)}
    (hx : reportExec S r1 g arg = some x) : reportExec S r2 g arg = some x := by
  unfold reportExec at hx ⊢
  simp only at hx ⊢
  split at hx <;> try exact hx
  split at hx <;> try exact hx
  exact Out.bind_mono (h _ _) (fun _ _ h => h) hx

theorem reportLine_mono (S : Sys σ) {r1 r2 : Runner σ} (h : Runner.Le r1 r2) {g : Glob σ} {t : Text} {x : Res (Glob σ × Int)}
    (hx : reportLine S r1 g t = some x) : reportLine S r2 g t = some x :=
  Out.bind_mono (h _ _) (fun _ _ h => h) hx

theorem repeatLoop_mono (S : Sys σ) {r1 r2 : Runner σ} (h : Runner.Le r1 r2) (cmd : Text) (room : Nat) :
    ∀ (as : List Text) (g : Glob σ) (x : Res (Glob σ)), repeatLoop S r1 cmd room g as = some x → repeatLoop S r2 cmd room g as = some x
  | [], _, _, hx => hx
  | a :: as, g, x, hx => by
    unfold repeatLoop at hx ⊢
    simp only at hx ⊢
    split at hx
    · rw [if_pos ‹_›]; exact hx
    · rw [if_neg ‹_›]
      refine Out.bind_mono (fun _ => reportLine_mono S h) (fun p r hr => ?_) hx
      split at hr
      · rw [if_pos ‹_›]; exact hr
      · rw [if_neg ‹_›]; exact repeatLoop_mono S h cmd room as _ _ hr

theorem repeatCmd_mono (S : Sys σ) {r1 r2 : Runner σ} (h : Runner.Le r1 r2) {g : Glob σ} {t : Text} {x : Res (Glob σ × Int)}
    (hx : repeatCmd S r1 g t = some x) : repeatCmd S r2 g t = some x := by
  unfold repeatCmd at hx ⊢
  split at hx <;> try exact hx
  split at hx <;> try exact hx
  simp only at hx ⊢
  split at hx <;> try exact hx
  exact Out.bind_mono (fun _ => repeatLoop_mono S h _ _ _ _ _) (fun _ _ h => h) hx

theorem execFn_mono (S : Sys σ) {r1 r2 : Runner σ} (h : Runner.Le r1 r2) {tbl : List Text} {cur : Nat} {g : Glob σ} {name arg : Text} {fs : Char}
    {x : Res (Glob σ × Int × Nat)} (hx : execFn S r1 tbl cur g name arg fs = some x) : execFn S r2 tbl cur g name arg fs = some x := by
  unfold execFn at hx ⊢
  simp only at hx ⊢
  split at hx <;> try exact hx
  · exact Out.bind_mono (fun _ => repeatCmd_mono S h) (fun _ _ h => h) hx
  · exact Out.bind_mono (fun _ => reportExec_mono S h) (fun _ _ h => h) hx

theorem doCmd_mono (S : Sys σ) {r1 r2 : Runner σ} (h : Runner.Le r1 r2) {tbl : List Text} {cur : Nat} {g : Glob σ} {c : Cmd}
    {x : Res (Glob σ × Int × Nat)} (hx : doCmd S r1 tbl cur g c = some x) : doCmd S r2 tbl cur g c = some x := by
  unfold doCmd at hx ⊢
  split at hx
  · rw [if_pos ‹_›]; exact hx
  · rw [if_neg ‹_›]
    split at hx
    · rw [if_pos ‹_›]; exact execFn_mono S h hx
    · rw [if_neg ‹_›]; exact hx

theorem run_mono (S : Sys σ) : ∀ (n : Nat) (tbl : List Text) (cur : Nat) (g : Glob σ) (r : Res (Glob σ × Int)),
    runFrom S n tbl cur g = some r → runFrom S (n + 1) tbl cur g = some r := by
  intro n
  induction n with
  | zero => intro _ _ _ _ h; simp [runFrom] at h
  | succ n ih =>
    intro tbl cur g r h
    unfold runFrom at h ⊢
    split at h <;> try exact h
    split at h <;> try exact h
    simp only at h ⊢
    split at h
    · exact ih _ _ _ _ h
    · exact ih _ _ _ _ h
    · refine Out.bind_mono (fun a ha => doCmd_mono S (fun tbl g x => ih tbl 0 g x) ha) (fun p r hr => ?_) h
      split at hr
      · exact hr
      · exact ih _ _ _ _ hr

theorem run_le (S : Sys σ) {n m : Nat} (h : n ≤ m) {tbl : List Text} {cur : Nat} {g : Glob σ} {r : Res (Glob σ × Int)}
    (hr : runFrom S n tbl cur g = some r) : runFrom S m tbl cur g = some r := by
  induction h with
  | refl => exact hr
  | step _ ih => exact run_mono S _ _ _ _ _ ih

/-- `C63`: a report has at most one result. -/
theorem C63_unique (S : Sys σ) {tbl : List Text} {cur : Nat} {g : Glob σ} {r r' : Res (Glob σ × Int)} (h : Ends S tbl cur g r)
    (h' : Ends S tbl cur g r') : r = r' := by
  obtain ⟨n, hn⟩ := h
  obtain ⟨m, hm⟩ := h'
  have a := run_le S (Nat.le_max_left n m) hn
  rw [run_le S (Nat.le_max_right n m) hm] at a
  exact (Option.some.inj a).symm

/-! ## One line -/

theorem dropWhile_head {p : Char → Bool} {t : Text} (h : ∀ c, t.head? = some c → p c = false) : t.dropWhile p = t := by
  cases t with
  | nil => rfl
  | cons c t => simp [List.dropWhile_cons, h c rfl]

theorem ljust_head {t : Text} (h : ∀ c, t.head? = some c → isSpace c = false) : ljust t = t := by
  unfold ljust
  rw [dropWhile_head h]
  simp

theorem justify_head {i : Bool} {t : Text} (h : ∀ c, t.head? = some c → isSpace c = false) : justify i t = t := by
  unfold justify
  split
  · split
    · split
      · exact ljust_head h
      · rfl
    · rfl
  · rfl

theorem strip_trimmed {t : Text} (h : ∀ c, t.getLast? = some c → 32 < c.toNat) : strip t = t := by
  unfold strip
  rw [dropWhile_head]
  · simp
  · intro c hc
    rw [List.head?_reverse] at hc
    have := h c hc
    simp; omega

theorem strip_blanks {t : Text} (h : ∀ c, t.getLast? = some c → 32 < c.toNat) (k : Nat) : strip (t ++ List.replicate k ' ') = t := by
  have e : strip (t ++ List.replicate k ' ') = strip t := by
    unfold strip
    rw [List.reverse_append, List.reverse_replicate]
    congr 1
    induction k with
    | zero => simp
    | succ k ih => rw [List.replicate_succ, List.cons_append, List.dropWhile_cons, if_pos (by decide), ih]
  rw [e, strip_trimmed h]

theorem strip_ljust {t : Text} (h : Trimmed t) : strip (ljust (' ' :: t)) = t := by
  unfold ljust
  have e : (' ' :: t).dropWhile isSpace = t := by
    rw [List.dropWhile_cons, if_pos (by decide), dropWhile_head h.1]
  simp only [e]
  split
  · subst_vars; decide
  · exact strip_blanks h.2 _

theorem word_not_space {c : Char} (h : wordCh c = true) : isSpace c = false := by
  by_contra hc
  unfold isSpace at hc
  simp only [Bool.not_eq_false, Bool.or_eq_true, decide_eq_true_eq] at hc
  rcases hc with ((((rfl | rfl) | rfl) | rfl) | hc) | hc
  · revert h; decide
  · revert h; decide
  · revert h; decide
  · revert h; decide
  · have : c = Char.ofNat 11 := by rw [← hc]; simp
    subst this; revert h; decide
  · have : c = Char.ofNat 12 := by rw [← hc]; simp
    subst this; revert h; decide

theorem splitLine_cmd {name arg : Text} (hn : Name name) (ha : Trimmed arg) : splitLine (name ++ if arg = [] then [] else ' ' :: arg) = (name, arg, 0) := by
  obtain ⟨h1, h2, -⟩ := hn
  have ht : (name ++ if arg = [] then [] else ' ' :: arg).takeWhile wordCh = name ∧
      (name ++ if arg = [] then [] else ' ' :: arg).dropWhile wordCh = if arg = [] then [] else ' ' :: arg := by
    have hw : name.takeWhile wordCh = name := List.takeWhile_eq_self_iff.2 h2
    have hd : name.dropWhile wordCh = [] := List.dropWhile_eq_nil_iff.2 h2
    have hsp : wordCh ' ' = false := by decide
    rw [List.takeWhile_append_of_pos h2, List.dropWhile_append_of_pos h2]
    split <;> simp [hsp]
  cases name with
  | nil => exact absurd rfl h1
  | cons c name =>
    have hc : c ≠ '\n' := by
      rintro rfl
      have := h2 '\n' (by simp)
      revert this; decide
    have : ∀ r : Text, splitLine (c :: r) = ((c :: r).takeWhile wordCh, strip (ljust ((c :: r).dropWhile wordCh)), 0) := by
      intro r; simp [splitLine, hc]
    rw [List.cons_append, this, ← List.cons_append, ht.1, ht.2]
    congr 2
    by_cases h : arg = []
    · subst h; decide
    · rw [if_neg h]; exact strip_ljust ha

theorem fs_not_space {fs : Char} (hf : fs = '$' ∨ fs = '#') : isSpace fs = false := by rcases hf with rfl | rfl <;> decide

theorem parse_cmd {fs : Char} {ig : Bool} {name arg : Text} (hn : Name name) (ha : Trimmed arg) :
    parseCmd (cmdText fs ig name arg) = { fs := fs, ignore := ig, name := name, arg := arg, rc := 0 } := by
  have hd : ∀ r : Text, (name ++ r).head? ≠ some '-' := by
    intro r
    cases name with
    | nil => exact absurd rfl hn.1
    | cons c name =>
      simp only [List.cons_append, List.head?_cons]
      rintro h; cases h
      have := hn.2.1 '-' (by simp)
      revert this; decide
  unfold parseCmd cmdText
  cases ig with
  | true => simp [splitLine_cmd hn ha]
  | false =>
    have h1 : (name ++ if arg = [] then [] else ' ' :: arg).head? ≠ some '-' := hd _
    have h2 := splitLine_cmd hn ha
    generalize (name ++ if arg = [] then [] else ' ' :: arg) = u at h1 h2
    simp [h1, h2]

theorem kind_cmd {fs : Char} (hf : fs = '$' ∨ fs = '#') {ig : Bool} {name arg : Text} (hn : Name name) : kind (cmdText fs ig name arg) = .command := by
  have hf' : fs = '#' ∨ fs = '$' := by tauto
  cases ig with
  | true =>
    simp only [cmdText, if_true, List.cons_append, List.nil_append, kind, if_pos hf']
    rcases hf with rfl | rfl <;> simp
  | false =>
    cases name with
    | nil => exact absurd rfl hn.1
    | cons c name =>
      have hc := hn.2.1 c (by simp)
      have h1 : c ≠ fs := by rintro rfl; rcases hf with rfl | rfl <;> revert hc <;> decide
      have h2 : c ∉ [' ', '\n', '\r', '\t'] := by
        intro h
        have := word_not_space hc
        simp only [List.mem_cons, List.not_mem_nil, or_false] at h
        rcases h with rfl | rfl | rfl | rfl <;> revert this <;> decide
      simp only [cmdText, Bool.false_eq_true, if_false, List.nil_append, List.cons_append, kind, if_pos hf', if_neg h1, if_neg h2]

theorem readLine_at {S : Sys σ} {tbl : List Text} {cur : Nat} {raw : Text} (h : tbl[cur]? = some raw) (hm : S.multi = true → continued raw = false) :
    readLine S.multi tbl cur = some (raw, cur + 1) := by
  obtain ⟨hl, he⟩ := List.getElem?_eq_some_iff.1 h
  unfold readLine
  rw [if_neg (by omega), List.drop_eq_getElem_cons hl, he]
  simp only [joinLines, List.nil_append]
  cases hS : S.multi with
  | true => simp [hm hS]
  | false => simp

/-- The next line is executed. -/
theorem ends_step {S : Sys σ} {tbl : List Text} {cur next : Nat} {g g' : Glob σ} {r : Res (Glob σ × Int)}
    (h : ∃ m, ∀ n, m ≤ n → runFrom S (n + 1) tbl cur g = runFrom S n tbl next g') : Ends S tbl cur g r ↔ Ends S tbl next g' r := by
  obtain ⟨m, h⟩ := h
  constructor
  · rintro ⟨n, hn⟩
    have := run_le S (Nat.le_max_left n m) hn
    have := run_le S (Nat.le_succ (max n m)) this
    rw [h _ (Nat.le_max_right n m)] at this
    exact ⟨_, this⟩
  · rintro ⟨n, hn⟩
    exact ⟨max n m + 1, by rw [h _ (Nat.le_max_right n m)]; exact run_le S (Nat.le_max_left n m) hn⟩

/-- The command gives this result, when the reports it calls end. -/
def Does (S : Sys σ) (tbl : List Text) (cur : Nat) (g : Glob σ) (name arg : Text) (fs : Char) (x : Res (Glob σ × Int × Nat)) : Prop :=
  ∃ n, execFn S (fun tbl g => runFrom S n tbl 0 g) tbl cur g name arg fs = some x

theorem does_le {S : Sys σ} {tbl : List Text} {cur : Nat} {g : Glob σ} {name arg : Text} {fs : Char} {x : Res (Glob σ × Int × Nat)} {n m : Nat} (h : n ≤ m)
    (hx : execFn S (fun tbl g => runFrom S n tbl 0 g) tbl cur g name arg fs = some x) :
    execFn S (fun tbl g => runFrom S m tbl 0 g) tbl cur g name arg fs = some x := execFn_mono S (fun _ _ _ => run_le S h) hx

theorem line_cmd {S : Sys σ} {tbl : List Text} {cur : Nat} {g g1 : Glob σ} {fs : Char} {ig : Bool} {name arg : Text}
    (hl : Line S tbl cur g g1 (cmdText fs ig name arg)) (hf : fs = '$' ∨ fs = '#') (hn : Name name) (ha : Trimmed arg) {x : Glob σ × Int × Nat}
    (hx : Does S tbl (cur + 1) g1 name arg fs (.ok x)) : ∃ m, ∀ n, m ≤ n → runFrom S (n + 1) tbl cur g =
      match react S x.1 ig name arg x.2.1 with
      | (g, some c) => some (.ok (g.print S [], c))
      | (g, none) => runFrom S n tbl x.2.2 g := by
  obtain ⟨raw, h1, h2, h3⟩ := hl
  obtain ⟨m, hm⟩ := hx
  refine ⟨m, fun n hle => ?_⟩
  have hj : justify S.indent (cmdText fs ig name arg) = cmdText fs ig name arg := justify_head (by
    unfold cmdText; simp only [List.head?_cons]; rintro c h; cases h; exact fs_not_space hf)
  conv => lhs; unfold runFrom
  rw [readLine_at h1 h2]
  simp only [h3, hj, kind_cmd hf hn, parse_cmd hn ha]
  have hd : doCmd S (fun tbl g => runFrom S n tbl 0 g) tbl (cur + 1) g1 { fs := fs, ignore := ig, name := name, arg := arg, rc := 0 } = some (.ok x) := by
    unfold doCmd
    simp only
    rw [if_neg (by have := hn.2.2; omega), if_pos ⟨trivial, hn.1⟩]
    exact does_le hle hm
  rw [hd]
  rfl

theorem ends_on {S : Sys σ} {tbl : List Text} {cur : Nat} {g g1 : Glob σ} {fs : Char} {ig : Bool} {name arg : Text}
    (hl : Line S tbl cur g g1 (cmdText fs ig name arg)) (hf : fs = '$' ∨ fs = '#') (hn : Name name) (ha : Trimmed arg) {g2 g3 : Glob σ} {rc : Int} {k : Nat}
    (hx : Does S tbl (cur + 1) g1 name arg fs (.ok (g2, rc, k))) (hr : react S g2 ig name arg rc = (g3, none)) (r : Res (Glob σ × Int)) :
    Ends S tbl cur g r ↔ Ends S tbl k g3 r := by
  obtain ⟨m, hm⟩ := line_cmd hl hf hn ha hx
  refine ends_step ⟨m, fun n h => ?_⟩
  rw [hm n h]
  simp only [hr]

theorem ends_stop {S : Sys σ} {tbl : List Text} {cur : Nat} {g g1 : Glob σ} {fs : Char} {ig : Bool} {name arg : Text}
    (hl : Line S tbl cur g g1 (cmdText fs ig name arg)) (hf : fs = '$' ∨ fs = '#') (hn : Name name) (ha : Trimmed arg) {g2 g3 : Glob σ} {rc c : Int} {k : Nat}
    (hx : Does S tbl (cur + 1) g1 name arg fs (.ok (g2, rc, k))) (hr : react S g2 ig name arg rc = (g3, some c)) :
    Ends S tbl cur g (.ok (g3.print S [], c)) := by
  obtain ⟨m, hm⟩ := line_cmd hl hf hn ha hx
  refine ⟨m + 1, ?_⟩
  rw [hm m (Nat.le_refl _)]
  simp only [hr]

theorem does {S : Sys σ} {tbl : List Text} {cur : Nat} {g : Glob σ} {name arg : Text} {fs : Char} {x : Res (Glob σ × Int × Nat)}
    (h : ∀ run, execFn S run tbl cur g name arg fs = some x) : Does S tbl cur g name arg fs x := ⟨0, h _⟩

theorem which_label {name : Text} {fs : Char} (h : SameName name "label") : which name fs = .label := by
  unfold SameName at h; simp [which, h]

theorem which_goto {name : Text} {fs : Char} (h : SameName name "goto") : which name fs = .goto := by
  unfold SameName at h; simp [which, h]

theorem which_return {name : Text} {fs : Char} (h : SameName name "return") : which name fs = .ret := by
  unfold SameName at h; simp [which, h]

theorem which_abort {name : Text} {fs : Char} (h : SameName name "abort") : which name fs = .abort := by
  unfold SameName at h; simp [which, h]

theorem which_onerror {name : Text} {fs : Char} (h : SameName name "onerror") : which name fs = .onerror := by
  unfold SameName at h; simp [which, h]

theorem which_shift {name : Text} {fs : Char} (h : SameName name "shift") : which name fs = .shift := by
  unfold SameName at h; simp [which, h]

theorem which_repeat {name : Text} {fs : Char} (h : SameName name "repeat") : which name fs = .rep := by
  unfold SameName at h; simp [which, h]

theorem which_exec {name : Text} (h : SameName name "reportexec") : which name '$' = .exec := by
  unfold SameName at h; simp [which, h]

theorem which_other {name : Text} {fs : Char} (h : ∀ r ∈ reserved, ¬ SameName name r) : which name fs = .other := by
  simp only [reserved, List.mem_cons, List.not_mem_nil, or_false, forall_eq_or_imp, forall_eq, SameName] at h
  obtain ⟨h1, h2, h3, h4, h5, h6, h7, h8, h9, h10⟩ := h
  unfold which
  simp only [h1, h2, h3, h4, h5, h6, h7, h8, h9, h10, if_false, false_or, false_and]

/-! ## Letters -/

theorem upper_lower (c : Char) : toUpperC c = toUpperC (toLowerC c) := by
  apply Char.toNat_inj.1
  rw [toNat_toUpperC, toNat_toUpperC, toNat_toLowerC]
  split <;> split <;> (try split) <;> omega

theorem word_lower {c : Char} (h : wordCh (toLowerC c) = true) : wordCh c = true := by
  unfold wordCh at h ⊢
  rw [← upper_lower c] at h
  simp only [Bool.or_eq_true, decide_eq_true_eq] at h ⊢
  rcases h with (h | h) | h
  · by_cases hc : 65 ≤ c.toNat ∧ c.toNat ≤ 90
    · exact Or.inl (Or.inr (by rw [toNat_toUpperC]; split <;> omega))
    · unfold toLowerC at h; rw [if_neg hc] at h; exact Or.inl (Or.inl h)
  · exact Or.inl (Or.inr h)
  · by_cases hc : 65 ≤ c.toNat ∧ c.toNat ≤ 90
    · exact Or.inl (Or.inr (by rw [toNat_toUpperC]; split <;> omega))
    · unfold toLowerC at h; rw [if_neg hc] at h; exact Or.inr h

/-! ## What the lines do -/

theorem kind_printed {i : Bool} {t : Text} (h : Printed t) : kind (justify i t) = .text ∧ justify i t = t := by
  rcases h with h | ⟨r, rfl | rfl⟩
  · have hj : justify i t = t := by
      unfold justify
      split
      · split
        · next c r e => rw [if_neg]; have := h c (by rw [e]; rfl); tauto
        · rfl
      · rfl
    refine ⟨?_, hj⟩
    rw [hj]
    cases t with
    | nil => rfl
    | cons c t =>
      have : c ≠ '$' ∧ c ≠ '#' := by
        by_cases hs : isSpace c = true
        · constructor <;> rintro rfl <;> revert hs <;> decide
        · exact h c (by rw [List.dropWhile_cons, if_neg hs]; rfl)
      simp [kind, this.1, this.2]
  all_goals
    rw [justify_head (by simp only [List.head?_cons]; rintro c h; cases h; decide)]
    exact ⟨by simp [kind], rfl⟩

/-- `C63`: text is printed, and the next line follows. -/
theorem C63_text (S : Sys σ) {tbl : List Text} {cur : Nat} {g g1 : Glob σ} {t : Text} (hl : Line S tbl cur g g1 t) (ht : Printed t)
    (r : Res (Glob σ × Int)) : Ends S tbl cur g r ↔ Ends S tbl (cur + 1) (g1.print S t) r := by
  obtain ⟨raw, h1, h2, h3⟩ := hl
  refine ends_step ⟨0, fun n _ => ?_⟩
  conv => lhs; unfold runFrom
  rw [readLine_at h1 h2]
  simp only [h3, (kind_printed ht).2]
  have := (kind_printed (i := S.indent) ht).1
  rw [(kind_printed ht).2] at this
  simp only [this]

/-- `C63`: a note is passed over. -/
theorem C63_note (S : Sys σ) {tbl : List Text} {cur : Nat} {g g1 : Glob σ} {t : Text} (hl : Line S tbl cur g g1 t) (ht : Note t)
    (r : Res (Glob σ × Int)) : Ends S tbl cur g r ↔ Ends S tbl (cur + 1) g1 r := by
  obtain ⟨raw, h1, h2, h3⟩ := hl
  refine ends_step ⟨0, fun n _ => ?_⟩
  conv => lhs; unfold runFrom
  obtain ⟨c, u, hc, ht⟩ := ht
  have hj : justify S.indent t = t := justify_head (by
    rcases ht with rfl | rfl <;> simp only [List.head?_cons] <;> rintro d h <;> cases h <;> exact fs_not_space hc)
  have hk : kind t = .note := by
    rcases ht with rfl | rfl <;> rcases hc with rfl | rfl <;> simp [kind]
  rw [readLine_at h1 h2]
  simp only [h3, hj, hk]

/-- `C63`: a report ends with code 0 behind its last line, with an empty line. -/
theorem C63_end (S : Sys σ) (tbl : List Text) {cur : Nat} (g : Glob σ) (h : tbl.length ≤ cur) : Ends S tbl cur g (.ok (g.print S [], 0)) := by
  refine ⟨1, ?_⟩
  unfold runFrom readLine
  rw [if_pos h]

section
variable {S : Sys σ} {tbl : List Text} {cur : Nat} {g g1 : Glob σ} {fs : Char} {ig : Bool} {name arg : Text}

/-- `C63`: after a command that succeeds the next line follows. -/
theorem C63_command (hl : Line S tbl cur g g1 (cmdText fs ig name arg)) (hf : fs = '$' ∨ fs = '#') (hn : Name name) (ha : Trimmed arg)
    (hr : ∀ r ∈ reserved, ¬ SameName name r) {s' : σ} {c : Int} (hc : S.cmd g1.s (name.map toLowerC) arg fs = (s', c)) (h0 : 0 ≤ c)
    (r : Res (Glob σ × Int)) : Ends S tbl cur g r ↔ Ends S tbl (cur + 1) { g1 with s := s' } r := by
  refine ends_on (g2 := { g1 with s := s' }) (rc := c) hl hf hn ha (does fun run => ?_) ?_ r
  · simp [execFn, which_other hr, hc]
  · unfold react
    rw [if_neg (by omega), if_neg (by omega), if_neg (by omega)]

/-- `C63`: after a command with an error the report goes on if the command has a dash or the reaction is to ignore it; otherwise the report ends, and so
do the calling reports if the reaction is to abort. -/
theorem C63_error (hl : Line S tbl cur g g1 (cmdText fs ig name arg)) (hf : fs = '$' ∨ fs = '#') (hn : Name name) (ha : Trimmed arg)
    (hr : ∀ r ∈ reserved, ¬ SameName name r) {s' : σ} (hc : S.cmd g1.s (name.map toLowerC) arg fs = (s', -1)) :
    (ig = true → ∀ r, Ends S tbl cur g r ↔ Ends S tbl (cur + 1) { g1 with s := s' } r) ∧
    (ig = false → ∃ s2, (g1.pr = 0 → s2 = s') ∧ (g1.pr ≠ 0 → s2 = S.dump s' name arg) ∧
      (g1.rt = 0 → ∀ r, Ends S tbl cur g r ↔ Ends S tbl (cur + 1) { g1 with s := s2 } r) ∧
      (g1.rt = -2 → Ends S tbl cur g (.ok ({ g1 with s := S.print s2 [] }, 0))) ∧
      (g1.rt = -3 ∨ g1.rt = -4 → Ends S tbl cur g (.ok ({ g1 with s := S.print s2 [] }, g1.rt)))) := by
  have hd : Does S tbl (cur + 1) g1 name arg fs (.ok ({ g1 with s := s' }, -1, cur + 1)) := does fun run => by simp [execFn, which_other hr, hc]
  constructor
  · rintro rfl r
    exact ends_on hl hf hn ha hd (by simp [react]) r
  · rintro rfl
    refine ⟨if g1.pr ≠ 0 then S.dump s' name arg else s', by simp +contextual, by simp +contextual, fun h r => ?_, fun h => ?_, fun h => ?_⟩
    · refine ends_on hl hf hn ha hd ?_ r
      unfold react
      by_cases hp : g1.pr = 0 <;> simp [hp, h]
    · refine ends_stop (g3 := { g1 with s := if g1.pr ≠ 0 then S.dump s' name arg else s' }) hl hf hn ha hd ?_
      unfold react
      by_cases hp : g1.pr = 0 <;> simp [hp, h]
    · refine ends_stop (g3 := { g1 with s := if g1.pr ≠ 0 then S.dump s' name arg else s' }) hl hf hn ha hd ?_
      unfold react
      have h0 : g1.rt ≠ 0 := by omega
      have h2 : g1.rt ≠ -2 := by omega
      by_cases hp : g1.pr = 0 <;> simp [hp, h0, h2]

/-- `C63`: `$return` ends the report, which the calling report takes as a success. -/
theorem C63_return (hl : Line S tbl cur g g1 (cmdText fs ig name arg)) (hf : fs = '$' ∨ fs = '#') (hn : Name name) (ha : Trimmed arg)
    (h : SameName name "return") : Ends S tbl cur g (.ok (g1.print S [], 0)) :=
  ends_stop (g2 := g1) (rc := -2) (k := cur + 1) hl hf hn ha (does fun run => by simp [execFn, which_return h]) (by simp [react])

/-- `C63`: `$abort` ends the report with code -3, also with a dash. -/
theorem C63_abort (hl : Line S tbl cur g g1 (cmdText fs ig name arg)) (hf : fs = '$' ∨ fs = '#') (hn : Name name) (ha : Trimmed arg)
    (h : SameName name "abort") : Ends S tbl cur g (.ok (g1.print S [], -3)) :=
  ends_stop (g2 := g1) (rc := -3) (k := cur + 1) hl hf hn ha (does fun run => by simp [execFn, which_abort h]) (by simp [react])

/-- `C63`: a label does nothing. -/
theorem C63_label (hl : Line S tbl cur g g1 (cmdText fs ig name arg)) (hf : fs = '$' ∨ fs = '#') (hn : Name name) (ha : Trimmed arg)
    (h : SameName name "label") (r : Res (Glob σ × Int)) : Ends S tbl cur g r ↔ Ends S tbl (cur + 1) g1 r :=
  ends_on (g2 := g1) (rc := 0) (k := cur + 1) hl hf hn ha (does fun run => by simp [execFn, which_label h]) (by simp [react]) r

/-- `C63`: `$shift` drops the first argument. -/
theorem C63_shift (hl : Line S tbl cur g g1 (cmdText fs ig name [])) (hf : fs = '$' ∨ fs = '#') (hn : Name name)
    (h : SameName name "shift") (r : Res (Glob σ × Int)) : Ends S tbl cur g r ↔ Ends S tbl (cur + 1) { g1 with arg0 := g1.arg0 + 1 } r :=
  ends_on (g2 := { g1 with arg0 := g1.arg0 + 1 }) (rc := 0) (k := cur + 1) hl hf hn (by simp [Trimmed])
    (does fun run => by simp [execFn, which_shift h, shift, show strip [] = [] from rfl, Out.bind]) (by simp [react]) r

/-- `C63`: `$ReportExec` runs the other report with its own arguments.  A report that aborts ends the calling one too, with the same code; otherwise the
next line follows, with the arguments that the calling report had. -/
theorem C63_call (hl : Line S tbl cur g g1 (cmdText '$' ig name arg)) (hn : Name name) (ha : Trimmed arg) (h : SameName name "reportexec")
    {file : Text} {as tbl' : List Text} (h1 : S.args g1.s arg = some (file :: as)) (h2 : S.file g1.s file = some tbl') (hd : g1.depth ≠ 0)
    {g2 : Glob σ} {c : Int} (hrun : Ends S tbl' 0 { g1 with argv := file :: as, arg0 := 0, depth := g1.depth + 1 } (.ok (g2, c))) :
    (c = 0 → ∀ r, Ends S tbl cur g r ↔ Ends S tbl (cur + 1) { g2 with argv := g1.argv, arg0 := g1.arg0, depth := g1.depth } r) ∧
    (c = -3 ∨ c = -4 → Ends S tbl cur g (.ok ({ g2 with s := S.print g2.s [], argv := g1.argv, arg0 := g1.arg0, depth := g1.depth }, c))) := by
  obtain ⟨n, hrun⟩ := hrun
  have hdo : Does S tbl (cur + 1) g1 name arg '$' (.ok ({ g2 with argv := g1.argv, arg0 := g1.arg0, depth := g1.depth }, c, cur + 1)) := by
    refine ⟨n, ?_⟩
    simp only [execFn, which_exec h, reportExec, h1, h2, hrun, Out.bind, if_neg hd]
  constructor
  · rintro rfl r
    exact ends_on hl (Or.inl rfl) hn ha hdo (by simp [react]) r
  · intro hc
    refine ends_stop (g3 := { g2 with argv := g1.argv, arg0 := g1.arg0, depth := g1.depth }) hl (Or.inl rfl) hn ha hdo ?_
    unfold react
    rw [if_neg (by omega), if_neg (by omega), if_pos hc]

/-- `C63`: `$OnError` sets the reaction to the last of its words that is one. -/
theorem C63_onerror (hl : Line S tbl cur g g1 (cmdText fs ig name arg)) (hf : fs = '$' ∨ fs = '#') (hn : Name name) (ha : Trimmed arg)
    (h : SameName name "onerror") {w : Text} (h1 : S.args g1.s arg = some [w]) (r : Res (Glob σ × Int)) :
    (SameName w "ignore" → (Ends S tbl cur g r ↔ Ends S tbl (cur + 1) { g1 with rt := 0 } r)) ∧
    (SameName w "return" → (Ends S tbl cur g r ↔ Ends S tbl (cur + 1) { g1 with rt := -2 } r)) ∧
    (SameName w "abort" → (Ends S tbl cur g r ↔ Ends S tbl (cur + 1) { g1 with rt := -3 } r)) ∧
    (SameName w "quitode" → (Ends S tbl cur g r ↔ Ends S tbl (cur + 1) { g1 with rt := -4 } r)) ∧
    (SameName w "noprint" → (Ends S tbl cur g r ↔ Ends S tbl (cur + 1) { g1 with pr := 0 } r)) := by
  have key : ∀ g2, onError1 g1 w = g2 → (Ends S tbl cur g r ↔ Ends S tbl (cur + 1) g2 r) := by
    rintro g2 rfl
    exact ends_on (g2 := onError1 g1 w) (rc := 0) (k := cur + 1) hl hf hn ha
      (does fun run => by simp [execFn, which_onerror h, onError, h1, Out.bind]) (by simp [react]) r
  have up : ∀ x : String, SameName w x → w.map toUpperC = x.toList.map toUpperC := by
    intro x hx
    unfold SameName at hx
    rw [← hx, List.map_map]
    apply List.map_congr_left
    intro c _
    exact upper_lower c
  refine ⟨fun hw => key _ ?_, fun hw => key _ ?_, fun hw => key _ ?_, fun hw => key _ ?_, fun hw => key _ ?_⟩ <;>
    (have hu := up _ hw; unfold onError1; rw [hu]; rfl)

end

/-! ## Goto -/

theorem lower_label {t : Text} : t.map toLowerC = "label".toList → ∀ c ∈ t, wordCh c = true := by
  intro h c hc
  have : toLowerC c ∈ "label".toList := by rw [← h]; exact List.mem_map_of_mem hc
  exact word_lower (by revert this; generalize toLowerC c = d; intro h; simp at h; rcases h with rfl | rfl | rfl | rfl | rfl <;> decide)

theorem name_label {t : Text} (h : SameName t "label") : Name t := by
  have hl : t.length = 5 := by have := congrArg List.length h; simpa using this
  exact ⟨by rintro rfl; simp at hl, lower_label h, by omega⟩

/-- The lines of the report; none is continued. -/
def Lines (S : Sys σ) (ls : List RLine) : Prop := ∀ l ∈ ls, l.Good ∧ (S.multi = true → continued l.text = false)

theorem find_label {S : Sys σ} {ls : List RLine} (hls : Lines S ls) (lab : Text) : ∀ (n cur : Nat), ls.length - cur < n →
    findLabel S (ls.map RLine.text) (lab.map toLowerC) n cur = .ok (((ls.drop cur).findIdx? (RLine.isLabel lab)).map fun i => cur + i + 1) := by
  intro n
  induction n with
  | zero => intro cur h; omega
  | succ n ih =>
    intro cur hn
    unfold findLabel
    by_cases hc : cur < ls.length
    · have hat : (ls.map RLine.text)[cur]? = some ls[cur].text := by simp [hc]
      obtain ⟨hg, hm⟩ := hls _ (List.getElem_mem hc)
      rw [readLine_at hat hm, List.drop_eq_getElem_cons hc, List.findIdx?_cons]
      have next : ∀ o : Option Nat, (Option.map (fun i => i + 1) o).map (fun i => cur + i + 1) = o.map fun i => cur + 1 + i + 1 := by
        intro o; cases o <;> simp; omega
      simp only
      cases hl : ls[cur] with
      | label fs name l =>
        rw [hl] at hg
        obtain ⟨hf, hname, htr⟩ := hg
        have hnm := name_label hname
        have hj : justify S.indent (RLine.label fs name l).text = cmdText fs false name l := justify_head (by
          simp only [RLine.text, cmdText, List.head?_cons]; rintro c h; cases h; exact fs_not_space hf)
        have hsp : splitLine (cmdText fs false name l).tail = (name, l, 0) := by
          simp only [cmdText, List.tail_cons, Bool.false_eq_true, if_false, List.nil_append]
          exact splitLine_cmd hnm htr
        rw [hj, if_pos (kind_cmd hf hnm), hsp]
        simp only
        have h30 := hnm.2.2
        rw [if_neg (by omega)]
        unfold SameName at hname
        by_cases he : l.map toLowerC = lab.map toLowerC
        · rw [if_pos ⟨hname, he⟩]
          simp [RLine.isLabel, he]
        · rw [if_neg (by tauto), ih (cur + 1) (by omega)]
          simp only [RLine.isLabel, beq_iff_eq, he, if_false, next]
      | other t =>
        rw [hl] at hg
        obtain ⟨h1, h2, h3⟩ := hg
        have hj : justify S.indent (RLine.other t).text = t := justify_head h1
        simp only [hj, RLine.isLabel, Bool.false_eq_true, if_false, next]
        rw [ih (cur + 1) (by omega)]
        by_cases hk : kind t = .command
        · rw [if_pos hk]
          have hfs : t.head? = some '$' ∨ t.head? = some '#' := by
            cases t with
            | nil => simp [kind] at hk
            | cons c t =>
              by_cases hc : c = '#' ∨ c = '$'
              · simp; tauto
              · simp [kind, hc] at hk
          have hsl : (splitLine t.tail).1 = t.tail.takeWhile wordCh ∨ (splitLine t.tail).1 = [] := by
            unfold splitLine
            split
            · right; rfl
            · next c r e =>
              split
              · right; rfl
              · left; rw [e]
          have hlen : ¬ (splitLine t.tail).1.length > 127 := by
            rcases hsl with h | h <;> rw [h] <;> simp; omega
          have hno : ¬ ((splitLine t.tail).1.map toLowerC = "label".toList ∧ (splitLine t.tail).2.1.map toLowerC = lab.map toLowerC) := by
            rintro ⟨h, -⟩
            rcases hsl with e | e
            · rw [e] at h; exact h3 ⟨hfs, h⟩
            · rw [e] at h; simp at h
          rw [if_neg hlen, if_neg hno]
        · rw [if_neg hk]
    · have : readLine S.multi (ls.map RLine.text) cur = none := by
        unfold readLine; rw [if_pos (by simp; omega)]
      rw [this, List.drop_eq_nil_of_le (by omega)]
      rfl

theorem goto_label {S : Sys σ} {ls : List RLine} (hls : Lines S ls) {lab : Text} (hb : ' ' ∉ lab) :
    gotoLabel S (ls.map RLine.text) lab = .ok (match ls.findIdx? (RLine.isLabel lab) with
      | some i => (0, i + 1)
      | none => (-3, ls.length)) := by
  have hf : lab.filter (· ≠ ' ') = lab := by
    rw [List.filter_eq_self]; intro c hc; simp; rintro rfl; exact hb hc
  unfold gotoLabel
  rw [hf, find_label hls lab _ 0 (by simp), List.drop_zero]
  cases h : ls.findIdx? (RLine.isLabel lab) <;> simp [Res.bind]

theorem split_one {w : Text} (h : Word w) : split seps w = [w] := split_last h.1 h.2.1 h.2.2

theorem split_two {w v : Text} (h : Word w) (hv : Word v) : split seps (w ++ ' ' :: v) = [w, v] := by
  rw [split_word h.1 h.2.1 h.2.2 (by decide), split_one hv]

section
variable {S : Sys σ} {ls : List RLine} {cur : Nat} {g g1 : Glob σ} {fs : Char} {ig : Bool} {name lab : Text}

/-- `C63`: `$goto` continues behind the first line of the report with that label, before or behind it; without such a label the report ends with
code -3. -/
theorem C63_goto (hls : Lines S ls) (hl : Line S (ls.map RLine.text) cur g g1 (cmdText fs ig name lab)) (hf : fs = '$' ∨ fs = '#') (hn : Name name)
    (h : SameName name "goto") (ha : Trimmed lab) (hw : Word lab) :
    (∀ i, ls.findIdx? (RLine.isLabel lab) = some i → ∀ r, Ends S (ls.map RLine.text) cur g r ↔ Ends S (ls.map RLine.text) (i + 1) g1 r) ∧
    (ls.findIdx? (RLine.isLabel lab) = none → Ends S (ls.map RLine.text) cur g (.ok (g1.print S [], -3))) := by
  have hb : ' ' ∉ lab := fun hm => hw.2.1 _ hm (by decide)
  have hgl := goto_label hls hb
  constructor
  · intro i hi r
    rw [hi] at hgl
    exact ends_on (g2 := g1) (rc := 0) (k := i + 1) hl hf hn ha
      (does fun run => by simp [execFn, which_goto h, gotoCmd, split_one hw, hgl, Res.bind]) (by simp [react]) r
  · intro hi
    rw [hi] at hgl
    exact ends_stop (g2 := g1) (rc := -3) (k := ls.length) hl hf hn ha
      (does fun run => by simp [execFn, which_goto h, gotoCmd, split_one hw, hgl, Res.bind]) (by simp [react])

/-- `C63`: `$goto` with a value goes to the label unless the value is 0 (or -1, see `C63_minus_counterexample`). -/
theorem C63_goto_if (hls : Lines S ls) {v : Text} (hl : Line S (ls.map RLine.text) cur g g1 (cmdText fs ig name (lab ++ ' ' :: v)))
    (hf : fs = '$' ∨ fs = '#') (hn : Name name) (h : SameName name "goto") (ha : Trimmed (lab ++ ' ' :: v)) (hw : Word lab) (hv : Word v) {k : Int}
    (hk : atoi v = some k) :
    (k = 0 → ∀ r, Ends S (ls.map RLine.text) cur g r ↔ Ends S (ls.map RLine.text) (cur + 1) g1 r) ∧
    (k ≠ 0 → k ≠ -1 → ∀ i, ls.findIdx? (RLine.isLabel lab) = some i →
      ∀ r, Ends S (ls.map RLine.text) cur g r ↔ Ends S (ls.map RLine.text) (i + 1) g1 r) ∧
    (k ≠ 0 → k ≠ -1 → ls.findIdx? (RLine.isLabel lab) = none → Ends S (ls.map RLine.text) cur g (.ok (g1.print S [], -3))) := by
  have hb : ' ' ∉ lab := fun hm => hw.2.1 _ hm (by decide)
  have hgl := goto_label hls hb
  refine ⟨?_, ?_, ?_⟩
  · rintro rfl r
    exact ends_on (g2 := g1) (rc := 0) (k := cur + 1) hl hf hn ha
      (does fun run => by simp [execFn, which_goto h, gotoCmd, split_two hw hv, hk, Res.bind]) (by simp [react]) r
  · intro h0 h1 i hi r
    rw [hi] at hgl
    exact ends_on (g2 := g1) (rc := 0) (k := i + 1) hl hf hn ha
      (does fun run => by simp [execFn, which_goto h, gotoCmd, split_two hw hv, hk, hgl, h0, h1, Res.bind]) (by simp [react]) r
  · intro h0 h1 hi
    rw [hi] at hgl
    exact ends_stop (g2 := g1) (rc := -3) (k := ls.length) hl hf hn ha
      (does fun run => by simp [execFn, which_goto h, gotoCmd, split_two hw hv, hk, hgl, h0, h1, Res.bind]) (by simp [react])

end

/-! ## What a report leaves as it was -/

theorem put_inv {τ : Type} {t : Text} {x : Res (τ × Text)} {p : τ × Text} (h : put t x = .ok p) : ∃ u, x = .ok (p.1, u) := by
  unfold put Res.bind at h
  cases x with
  | ok q => simp only [Res.ok.injEq] at h; exact ⟨q.2, by rw [← h]⟩
  | err => cases h
  | ub => cases h

theorem expand_keeps {τ : Type} {E : Env τ} {R : τ → τ → Prop} (hr : ∀ s, R s s) (ht : ∀ {a b c}, R a b → R b c → R a c)
    (he : ∀ s t, R s (E.eval s t).1) (hf : ∀ s f a, R s (E.fn s f a).1) : ∀ (n : Nat) (s : τ) (t : Text) (p : τ × Text),
    expandN E n s t = .ok p → R s p.1 := by
  intro n
  induction n with
  | zero => intro s t p h; cases t <;> (simp only [expandN, Res.ok.injEq] at h; rw [← h]; exact hr s)
  | succ n ih =>
    intro s t p h
    cases t with
    | nil => simp only [expandN, Res.ok.injEq] at h; rw [← h]; exact hr s
    | cons c r =>
      have go : ∀ {u : Text} {s' : τ} {r' : Text}, R s s' → put u (expandN E n s' r') = .ok p → R s p.1 := by
        intro u s' r' hs h
        obtain ⟨v, hv⟩ := put_inv h
        exact ht hs (ih _ _ (p.1, v) hv)
      have hsub : ∀ {w : Text} {q : τ × Text}, (if calls w then expandN E n s w else .ok (s, w)) = .ok q → R s q.1 := by
        intro w q h
        split at h
        · exact ih _ _ _ h
        · simp only [Res.ok.injEq] at h; rw [← h]; exact hr s
      have hbind : ∀ {α β : Type} {x : Res α} {f : α → Res β} {b : β}, x.bind f = .ok b → ∃ a, x = .ok a ∧ f a = .ok b := by
        intro α β x f b h
        cases x with
        | ok a => exact ⟨a, rfl, h⟩
        | err => cases h
        | ub => cases h
      unfold expandN at h
      simp only at h
      split at h
      · split at h
        · exact go (hr s) h
        · split at h
          · obtain ⟨q, h1, h2⟩ := hbind h
            obtain ⟨v, h3, h4⟩ := hbind h2
            exact go (hsub h1) h4
          · exact go (hr s) h
      · split at h
        · split at h
          · exact go (hr s) h
          · split at h
            · obtain ⟨q, h1, h2⟩ := hbind h
              exact go (ht (hsub h1) (he _ _)) h2
            · split at h
              · cases h
              · exact ih _ _ _ h
        · split at h
          · split at h
            · exact go (hr s) h
            · split at h
              · obtain ⟨q, h1, h2⟩ := hbind h
                split at h2
                · cases h2
                · split at h2
                  · exact go (ht (hsub h1) (hf _ _ _)) h2
                  · exact go (ht (hsub h1) (hf _ _ _)) h2
              · exact go (hr s) h
          · split at h
            · split at h
              · exact go (hr s) h
              · split at h
                · exact go (hr s) h
                · split at h
                  · cases h
                  · exact ih _ _ _ h
            · exact go (hr s) h

/-- Nothing but the rest of the program changes. -/
theorem line_keeps {S : Sys σ} {g g1 : Glob σ} {raw t : Text} (h : expand (env S) g raw = .ok (g1, t)) : g1 = { g with s := g1.s } :=
  expand_keeps (E := env S) (R := fun g g1 => g1 = { g with s := g1.s }) (fun _ => rfl)
    (fun {a b c} h1 h2 => by rw [h2, h1]) (fun _ _ => rfl) (fun _ _ _ => rfl) _ _ _ _ h

/-- The arguments and the depth stay; the reaction to errors stays one of the four. -/
def Kept (g g' : Glob σ) : Prop := g'.argv = g.argv ∧ g'.depth = g.depth ∧ (Reaction g.rt → Reaction g'.rt)

theorem Kept.refl (g : Glob σ) : Kept g g := ⟨rfl, rfl, id⟩

theorem Kept.trans {a b c : Glob σ} (h1 : Kept a b) (h2 : Kept b c) : Kept a c := ⟨h2.1.trans h1.1, h2.2.1.trans h1.2.1, h2.2.2 ∘ h1.2.2⟩

theorem Kept.of_s {g g' : Glob σ} (h : g' = { g with s := g'.s }) : Kept g g' := by
  rw [h]; exact ⟨rfl, rfl, id⟩

/-- What a runner keeps, and the codes that it gives. -/
def Runner.Keeps (run : Runner σ) : Prop := ∀ tbl g g' c, run tbl g = some (.ok (g', c)) → Kept g g' ∧ (Reaction g.rt → c = 0 ∨ c = -3 ∨ c = -4)

theorem Out.bind_ok {α β : Type} {x : Out α} {f : α → Out β} {b : β} (h : Out.bind x f = some (.ok b)) : ∃ a, x = some (.ok a) ∧ f a = some (.ok b) := by
  cases x with
  | none => cases h
  | some x =>
    cases x with
    | ok a => exact ⟨a, rfl, h⟩
    | err => cases h
    | ub => cases h

theorem reportExec_keeps {S : Sys σ} {run : Runner σ} (hr : run.Keeps) {g g' : Glob σ} {arg : Text} {c : Int}
    (h : reportExec S run g arg = some (.ok (g', c))) : Kept g g' ∧ g'.arg0 = g.arg0 := by
  unfold reportExec at h
  simp only at h
  split at h
  · cases h; exact ⟨⟨rfl, rfl, id⟩, rfl⟩
  · cases h; exact ⟨⟨rfl, rfl, id⟩, rfl⟩
  · split at h
    · cases h; exact ⟨⟨rfl, rfl, id⟩, rfl⟩
    · obtain ⟨p, h1, h2⟩ := Out.bind_ok h
      cases h2
      exact ⟨⟨rfl, rfl, (hr _ _ _ _ h1).1.2.2⟩, rfl⟩

theorem reportLine_keeps {S : Sys σ} {run : Runner σ} (hr : run.Keeps) {g g' : Glob σ} {t : Text} {c : Int}
    (h : reportLine S run g t = some (.ok (g', c))) : Kept g g' ∧ g'.arg0 = g.arg0 := by
  obtain ⟨p, h1, h2⟩ := Out.bind_ok h
  cases h2
  exact ⟨⟨rfl, rfl, (hr _ _ _ _ h1).1.2.2⟩, rfl⟩

theorem repeatLoop_keeps {S : Sys σ} {run : Runner σ} (hr : run.Keeps) {cmd : Text} {room : Nat} : ∀ (as : List Text) (g g' : Glob σ),
    repeatLoop S run cmd room g as = some (.ok g') → Kept g g' ∧ g'.arg0 = g.arg0
  | [], g, g', h => by cases h; exact ⟨Kept.refl g, rfl⟩
  | a :: as, g, g', h => by
    unfold repeatLoop at h
    simp only at h
    split at h
    · cases h
    · obtain ⟨p, h1, h2⟩ := Out.bind_ok h
      have h3 := reportLine_keeps hr h1
      split at h2
      · cases h2; exact h3
      · have h4 := repeatLoop_keeps hr as _ _ h2
        exact ⟨h3.1.trans h4.1, h4.2.trans h3.2⟩

theorem repeatCmd_keeps {S : Sys σ} {run : Runner σ} (hr : run.Keeps) {g g' : Glob σ} {t : Text} {c : Int}
    (h : repeatCmd S run g t = some (.ok (g', c))) : Kept g g' ∧ g'.arg0 = g.arg0 := by
  unfold repeatCmd at h
  split at h
  · cases h
  · cases h
  · next g1 line he =>
    have hk := line_keeps he
    have h0 : Kept g g1 ∧ g1.arg0 = g.arg0 := ⟨Kept.of_s hk, by rw [hk]⟩
    split at h
    · cases h; exact h0
    · simp only at h
      split at h
      · cases h; exact h0
      · obtain ⟨p, h1, h2⟩ := Out.bind_ok h
        cases h2
        have h3 := repeatLoop_keeps hr _ _ _ h1
        exact ⟨h0.1.trans h3.1, h3.2.trans h0.2⟩

theorem onError1_keeps (g : Glob σ) (a : Text) : Kept g (onError1 g a) := by
  unfold onError1
  simp only
  repeat' split
  all_goals first
    | exact Kept.refl g
    | exact ⟨rfl, rfl, fun _ => by unfold Reaction; simp⟩

theorem onError_keeps (S : Sys σ) (g : Glob σ) (arg : Text) : Kept g (onError S g arg).1 := by
  unfold onError
  split
  · exact Kept.refl g
  · next as _ =>
    simp only
    have : ∀ (as : List Text) (g : Glob σ), Kept g (as.foldl onError1 g) := by
      intro as
      induction as with
      | nil => exact Kept.refl
      | cons a as ih => exact fun g => (onError1_keeps g a).trans (ih _)
    exact this as g

theorem execFn_keeps {S : Sys σ} {run : Runner σ} (hr : run.Keeps) {tbl : List Text} {cur : Nat} {g : Glob σ} {name arg : Text} {fs : Char}
    {x : Glob σ × Int × Nat} (h : execFn S run tbl cur g name arg fs = some (.ok x)) : Kept g x.1 := by
  unfold execFn at h
  simp only at h
  split at h
  · cases h; exact Kept.refl g
  · cases hg : gotoCmd S tbl cur arg with
    | ok p => rw [hg] at h; cases h; exact Kept.refl g
    | err => rw [hg] at h; cases h
    | ub => rw [hg] at h; cases h
  · cases h; exact Kept.refl g
  · cases h; exact Kept.refl g
  · cases h; exact onError_keeps S g arg
  · obtain ⟨p, h1, h2⟩ := Out.bind_ok h
    cases h2
    unfold shift at h1
    split at h1
    · cases h1; exact ⟨rfl, rfl, id⟩
    · split at h1
      · cases h1
      · cases h1; exact ⟨rfl, rfl, id⟩
  · cases h; exact ⟨rfl, rfl, id⟩
  · obtain ⟨p, h1, h2⟩ := Out.bind_ok h
    cases h2
    exact (repeatCmd_keeps hr h1).1
  · obtain ⟨p, h1, h2⟩ := Out.bind_ok h
    cases h2
    exact (reportExec_keeps hr h1).1
  · cases h; exact ⟨rfl, rfl, id⟩

theorem react_keeps (S : Sys σ) (g : Glob σ) (ig : Bool) (name arg : Text) (rt : Int) : Kept g (react S g ig name arg rt).1 ∧
    (Reaction g.rt → ∀ c, (react S g ig name arg rt).2 = some c → c = 0 ∨ c = -3 ∨ c = -4) := by
  have key : ∀ g' : Glob σ, g'.argv = g.argv ∧ g'.depth = g.depth ∧ g'.rt = g.rt →
      Kept g (if g'.rt = 0 then (g', none) else if g'.rt = -2 then (g', some 0) else (g', some g'.rt) : Glob σ × Option Int).1 ∧
      (Reaction g.rt → ∀ c, (if g'.rt = 0 then (g', none) else if g'.rt = -2 then (g', some 0) else (g', some g'.rt) : Glob σ × Option Int).2 = some c →
        c = 0 ∨ c = -3 ∨ c = -4) := by
    rintro g' ⟨h1, h2, h3⟩
    have hk : Kept g g' := ⟨h1, h2, by rw [h3]; exact id⟩
    split
    · exact ⟨hk, by simp⟩
    · split
      · exact ⟨hk, by rintro - c h; simp at h; omega⟩
      · refine ⟨hk, ?_⟩
        rintro hr c h
        simp only [Option.some.injEq] at h
        unfold Reaction at hr
        omega
  unfold react
  split
  · split
    · exact ⟨Kept.refl g, by simp⟩
    · simp only
      split
      · exact key _ ⟨rfl, rfl, rfl⟩
      · exact key _ ⟨rfl, rfl, rfl⟩
  · split
    · exact ⟨Kept.refl g, by rintro - c h; simp at h; omega⟩
    · split
      · refine ⟨Kept.refl g, ?_⟩
        rintro - c h
        simp only [Option.some.injEq] at h
        omega
      · exact ⟨Kept.refl g, by simp⟩

theorem run_keeps (S : Sys σ) : ∀ (n : Nat) (tbl : List Text) (cur : Nat) (g g' : Glob σ) (c : Int),
    runFrom S n tbl cur g = some (.ok (g', c)) → Kept g g' ∧ (Reaction g.rt → c = 0 ∨ c = -3 ∨ c = -4) := by
  intro n
  induction n with
  | zero => intro _ _ _ _ _ h; simp [runFrom] at h
  | succ n ih =>
    intro tbl cur g g' c h
    unfold runFrom at h
    split at h
    · cases h; exact ⟨⟨rfl, rfl, id⟩, fun _ => Or.inl rfl⟩
    · split at h
      · cases h
      · cases h
      · next g1 t he =>
        have h0 : Kept g g1 := Kept.of_s (line_keeps he)
        have on : ∀ g2 k, Kept g1 g2 → runFrom S n tbl k g2 = some (.ok (g', c)) → Kept g g' ∧ (Reaction g.rt → c = 0 ∨ c = -3 ∨ c = -4) := by
          intro g2 k h2 hrun
          have h3 := ih _ _ _ _ _ hrun
          have h02 := h0.trans h2
          exact ⟨h02.trans h3.1, fun hr => h3.2 (h02.2.2 hr)⟩
        simp only at h
        split at h
        · exact on (g1.print S (justify S.indent t)) _ ⟨rfl, rfl, id⟩ h
        · exact on _ _ (Kept.refl g1) h
        · obtain ⟨p, h1, h2⟩ := Out.bind_ok h
          have hp : Kept g1 p.1 := by
            unfold doCmd at h1
            split at h1
            · cases h1
            · split at h1
              · exact execFn_keeps (fun tbl g g' c => ih tbl 0 g g' c) h1
              · cases h1; exact Kept.refl g1
          have hre := react_keeps S p.1 (parseCmd (justify S.indent t)).ignore (parseCmd (justify S.indent t)).name (parseCmd (justify S.indent t)).arg p.2.1
          split at h2
          · next g3 c' e =>
            rw [e] at hre
            cases h2
            have h03 := (h0.trans hp)
            exact ⟨h03.trans (hre.1.trans ⟨rfl, rfl, id⟩), fun hr => hre.2 (h03.2.2 hr) _ rfl⟩
          · next g3 e =>
            rw [e] at hre
            exact on _ _ (hp.trans hre.1) h2

/-- `C63`: whatever the lines of a report and of the reports it calls are, the report ends with the code 0, -3 (abort) or -4 (quit), and its own arguments
and depth are those with which it began. -/
theorem C63_codes (S : Sys σ) {tbl : List Text} {cur : Nat} {g g' : Glob σ} {c : Int} (h : Ends S tbl cur g (.ok (g', c))) :
    g'.argv = g.argv ∧ g'.depth = g.depth ∧ (Reaction g.rt → Reaction g'.rt ∧ (c = 0 ∨ c = -3 ∨ c = -4)) := by
  obtain ⟨n, h⟩ := h
  have := run_keeps S n tbl cur g g' c h
  exact ⟨this.1.1, this.1.2.1, fun hr => ⟨this.1.2.2 hr, this.2 hr⟩⟩

/-- `C63`: a report that is called does not change the arguments of the calling report, nor the number of shifts. -/
theorem C63_restored (S : Sys σ) {tbl : List Text} {cur : Nat} {g : Glob σ} {name arg : Text} (h : SameName name "reportexec")
    {g' : Glob σ} {c : Int} {k : Nat} (hd : Does S tbl cur g name arg '$' (.ok (g', c, k))) : g'.argv = g.argv ∧ g'.arg0 = g.arg0 ∧ g'.depth = g.depth ∧ k = cur := by
  obtain ⟨n, hn⟩ := hd
  simp only [execFn, which_exec h] at hn
  obtain ⟨p, h1, h2⟩ := Out.bind_ok hn
  cases h2
  have := reportExec_keeps (fun tbl g g' c => run_keeps S n tbl 0 g g' c) h1
  exact ⟨this.1.1, this.2, this.1.2.1, rfl⟩

/-! ## Continued lines -/

theorem continued_append {a l : Text} (h : a.getLast? = some '\n') : continued (a ++ l) = continued l := by
  obtain ⟨b, rfl⟩ : ∃ b, a = b ++ ['\n'] := by
    refine ⟨a.dropLast, ?_⟩
    rw [List.getLast?_eq_some_iff] at h
    obtain ⟨b, rfl⟩ := h
    simp
  unfold continued
  rw [List.reverse_append, List.reverse_append]
  generalize l.reverse = m
  match m with
  | [] => simp
  | [c] =>
    by_cases hc : c = '\\'
    · subst hc; simp
    · simp [hc]
  | c :: d :: m =>
    by_cases hc : c = '\\'
    · subst hc
      by_cases hd : d = ' '
      · subst hd; simp
      · simp [hd]
    · simp [hc]

/-- The lines behind `acc`, where `acc` ends with a line feed: the first joined line begins with it. -/
theorem join_acc : ∀ (ls : List Text) (acc : Text), acc.getLast? = some '\n' →
    joinLines true acc ls = (acc ++ (joinLines true [] ls).1, (joinLines true [] ls).2)
  | [], acc, _ => by simp [joinLines]
  | l :: r, acc, h => by
    unfold joinLines
    rw [continued_append h, List.nil_append]
    by_cases hc : continued l = true
    · simp only [hc, Bool.and_self, if_true]
      have hl : 2 ≤ l.length := by
        unfold continued at hc
        split at hc
        · next e => have := congrArg List.length e; simp at this; omega
        · simp at hc
      have e : (acc ++ l).dropLast.dropLast = acc ++ l.dropLast.dropLast := by
        rw [List.dropLast_append_of_ne_nil (by rintro rfl; simp at hl), List.dropLast_append_of_ne_nil]
        intro h0
        have := congrArg List.length h0
        simp at this; omega
      rw [e, join_acc r (acc ++ l.dropLast.dropLast ++ ['\n']) (by simp), join_acc r (l.dropLast.dropLast ++ ['\n']) (by simp)]
      simp
    · simp [hc]

theorem logical_join : ∀ l r, logical (l :: r) = (joinLines true [] (l :: r)).1 :: logical ((l :: r).drop (joinLines true [] (l :: r)).2)
  | l, [] => by
    unfold joinLines logical
    by_cases hc : continued l = true
    · simp [hc, joinLines, logical]
    · simp [hc, logical]
  | l, l' :: r => by
    have ih := logical_join l' r
    rw [logical]
    conv => rhs; rw [joinLines]
    by_cases hc : continued l = true
    · simp only [hc, List.nil_append, Bool.and_self, if_true]
      rw [join_acc (l' :: r) _ (by simp), ih]
      simp
    · simp [hc]

theorem not_continued_joined : ∀ (ls : List Text) (acc : Text), acc.getLast? = some '\n' ∨ acc = [] → continued (joinLines true acc ls).1 = false
  | [], acc, h => by
    rcases h with h | rfl
    · have := continued_append (l := []) h
      rw [List.append_nil] at this
      rw [joinLines, this]; rfl
    · rfl
  | l :: r, acc, h => by
    unfold joinLines
    by_cases hc : continued (acc ++ l) = true
    · simp only [hc, Bool.and_self, if_true]
      exact not_continued_joined r _ (by simp)
    · simpa [hc] using hc

theorem join_pos (m : Bool) : ∀ (acc l : Text) (r : List Text), 0 < (joinLines m acc (l :: r)).2 ∧ (joinLines m acc (l :: r)).2 ≤ (l :: r).length
  | acc, l, r => by
    unfold joinLines
    by_cases hc : (m && continued (acc ++ l)) = true
    · simp only [hc, if_true]
      cases r with
      | nil => simp [joinLines]
      | cons l' r =>
        have := join_pos m ((acc ++ l).dropLast.dropLast ++ ['\n']) l' r
        simp only [List.length_cons] at this ⊢
        omega
    · simp [hc]

theorem logical_not_continued : ∀ (n : Nat) (ls : List Text), ls.length ≤ n → ∀ t ∈ logical ls, continued t = false := by
  intro n
  induction n with
  | zero =>
    intro ls h t ht
    rw [List.length_eq_zero_iff.1 (by omega : ls.length = 0)] at ht
    simp [logical] at ht
  | succ n ih =>
    intro ls h t ht
    cases ls with
    | nil => simp [logical] at ht
    | cons l r =>
      rw [logical_join] at ht
      rcases List.mem_cons.1 ht with rfl | ht
      · exact not_continued_joined _ _ (Or.inr rfl)
      · refine ih _ ?_ t ht
        have hk := join_pos true [] l r
        simp only [List.length_drop, List.length_cons] at h ⊢
        omega

/-- The position `cur` in the lines, `i` in the joined lines. -/
def Here (tbl : List Text) (cur i : Nat) : Prop := cur ≤ tbl.length ∧ logical (tbl.drop cur) = (logical tbl).drop i ∧ i ≤ (logical tbl).length

theorem read_logical {tbl : List Text} {cur i : Nat} (h : Here tbl cur i) :
    (readLine true tbl cur = none ∧ readLine true (logical tbl) i = none) ∨
    ∃ t next, cur < next ∧ readLine true tbl cur = some (t, next) ∧ readLine true (logical tbl) i = some (t, i + 1) ∧ Here tbl next (i + 1) := by
  obtain ⟨h1, h2, h3⟩ := h
  by_cases hc : cur < tbl.length
  · right
    have hd : tbl.drop cur = tbl[cur] :: tbl.drop (cur + 1) := List.drop_eq_getElem_cons hc
    have hj := logical_join tbl[cur] (tbl.drop (cur + 1))
    rw [← hd] at hj
    have hp := join_pos true [] tbl[cur] (tbl.drop (cur + 1))
    rw [← hd] at hp
    refine ⟨(joinLines true [] (tbl.drop cur)).1, cur + (joinLines true [] (tbl.drop cur)).2, by omega, ?_, ?_, ?_⟩
    · unfold readLine; rw [if_neg (by omega)]
    · rw [hj] at h2
      have hi : (logical tbl)[i]? = some (joinLines true [] (tbl.drop cur)).1 := by
        have := congrArg List.head? h2
        rw [List.head?_cons, List.head?_drop] at this
        exact this.symm
      obtain ⟨hl, he⟩ := List.getElem?_eq_some_iff.1 hi
      unfold readLine
      rw [if_neg (by omega), List.drop_eq_getElem_cons hl, he]
      have hn := not_continued_joined (tbl.drop cur) [] (Or.inr rfl)
      generalize (joinLines true [] (tbl.drop cur)).1 = t at hn
      rw [joinLines]
      simp [hn]
    · rw [hj] at h2
      have hlen := congrArg List.length h2
      simp only [List.length_cons, List.length_drop] at hlen
      refine ⟨by have := hp.2; simp only [List.length_drop] at this; omega, ?_, by omega⟩
      have := congrArg List.tail h2
      rw [List.tail_cons, List.tail_drop, List.drop_drop] at this
      exact this
  · left
    have : tbl.drop cur = [] := List.drop_eq_nil_of_le (by omega)
    rw [this] at h2
    have h4 : (logical tbl).length ≤ i := by
      have := congrArg List.length h2
      simp only [logical, List.length_nil, List.length_drop] at this; omega
    unfold readLine
    rw [if_pos (by omega), if_pos (by omega)]
    exact ⟨rfl, rfl⟩

theorem find_logical {S : Sys σ} (hS : S.multi = true) {tbl : List Text} (lab : Text) : ∀ (n m cur i : Nat), Here tbl cur i → tbl.length - cur < n →
    (logical tbl).length - i < m →
    (findLabel S tbl lab n cur = .ub ∧ findLabel S (logical tbl) lab m i = .ub) ∨
    (findLabel S tbl lab n cur = .ok none ∧ findLabel S (logical tbl) lab m i = .ok none) ∨
    ∃ k j, findLabel S tbl lab n cur = .ok (some k) ∧ findLabel S (logical tbl) lab m i = .ok (some j) ∧ Here tbl k j := by
  intro n
  induction n with
  | zero => intro m cur i _ h; omega
  | succ n ih =>
    intro m cur i hh hn hm
    cases m with
    | zero => omega
    | succ m =>
      unfold findLabel
      rw [hS]
      rcases read_logical hh with ⟨h1, h2⟩ | ⟨t, next, hlt, h1, h2, h3⟩
      · rw [h1, h2]; exact Or.inr (Or.inl ⟨rfl, rfl⟩)
      · rw [h1, h2]
        have ih' := ih m next (i + 1) h3 (by have := h3.1; omega) (by have := h3.2.2; omega)
        simp only
        by_cases hk : kind (justify S.indent t) = .command
        · simp only [if_pos hk]
          by_cases hl : (splitLine (justify S.indent t).tail).1.length > 127
          · simp only [if_pos hl]; simp
          · simp only [if_neg hl]
            by_cases hy : (splitLine (justify S.indent t).tail).1.map toLowerC = "label".toList ∧ (splitLine (justify S.indent t).tail).2.1.map toLowerC = lab
            · simp only [if_pos hy]
              exact Or.inr (Or.inr ⟨_, _, rfl, rfl, h3⟩)
            · simp only [if_neg hy]; exact ih'
        · simp only [if_neg hk]; exact ih'

theorem here_end (tbl : List Text) : Here tbl tbl.length (logical tbl).length := by
  refine ⟨Nat.le_refl _, ?_, Nat.le_refl _⟩
  rw [List.drop_length, List.drop_length]
  rfl

theorem here_start (tbl : List Text) : Here tbl 0 0 := ⟨Nat.zero_le _, rfl, Nat.zero_le _⟩

theorem goto_logical {S : Sys σ} (hS : S.multi = true) {tbl : List Text} {cur i : Nat} (h : Here tbl cur i) (arg : Text) :
    (gotoCmd S tbl cur arg = .ub ∧ gotoCmd S (logical tbl) i arg = .ub) ∨
    ∃ c k j, gotoCmd S tbl cur arg = .ok (c, k) ∧ gotoCmd S (logical tbl) i arg = .ok (c, j) ∧ Here tbl k j := by
  have key : ∀ lab, (gotoLabel S tbl lab = .ub ∧ gotoLabel S (logical tbl) lab = .ub) ∨
      ∃ c k j, gotoLabel S tbl lab = .ok (c, k) ∧ gotoLabel S (logical tbl) lab = .ok (c, j) ∧ Here tbl k j := by
    intro lab
    unfold gotoLabel
    rcases find_logical hS ((lab.filter (· ≠ ' ')).map toLowerC) (tbl.length + 1) ((logical tbl).length + 1) 0 0 (here_start tbl) (by omega) (by omega) with
      ⟨h1, h2⟩ | ⟨h1, h2⟩ | ⟨k, j, h1, h2, h3⟩
    · rw [h1, h2]; exact Or.inl ⟨rfl, rfl⟩
    · rw [h1, h2]; exact Or.inr ⟨_, _, _, rfl, rfl, here_end tbl⟩
    · rw [h1, h2]; exact Or.inr ⟨_, _, _, rfl, rfl, h3⟩
  unfold gotoCmd
  split
  · exact Or.inr ⟨_, _, _, rfl, rfl, h⟩
  · exact key _
  · split
    · exact Or.inl ⟨rfl, rfl⟩
    · split
      · exact Or.inr ⟨_, _, _, rfl, rfl, h⟩
      · exact key _

/-- The same result, at corresponding lines. -/
def Same (tbl : List Text) (x y : Out (Glob σ × Int × Nat)) : Prop :=
  (x = y ∧ ∀ a, x ≠ some (.ok a)) ∨ ∃ g c k j, x = some (.ok (g, c, k)) ∧ y = some (.ok (g, c, j)) ∧ Here tbl k j

theorem same_stay {tbl : List Text} {cur i : Nat} (h : Here tbl cur i) (x : Out (Glob σ × Int)) :
    Same tbl (x.bind fun p => some (.ok (p.1, p.2, cur))) (x.bind fun p => some (.ok (p.1, p.2, i))) := by
  cases x with
  | none => exact Or.inl ⟨rfl, by simp [Out.bind]⟩
  | some x =>
    cases x with
    | ok a => exact Or.inr ⟨_, _, _, _, rfl, rfl, h⟩
    | err => exact Or.inl ⟨rfl, by simp [Out.bind]⟩
    | ub => exact Or.inl ⟨rfl, by simp [Out.bind]⟩

theorem exec_logical {S : Sys σ} (hS : S.multi = true) {run : Runner σ} {tbl : List Text} {cur i : Nat} (h : Here tbl cur i) (g : Glob σ) (name arg : Text)
    (fs : Char) : Same tbl (execFn S run tbl cur g name arg fs) (execFn S run (logical tbl) i g name arg fs) := by
  unfold execFn
  simp only
  cases which name fs with
  | goto =>
    simp only
    rcases goto_logical hS h arg with ⟨h1, h2⟩ | ⟨c, k, j, h1, h2, h3⟩
    · rw [h1, h2]; exact Or.inl ⟨rfl, by simp [Res.bind]⟩
    · rw [h1, h2]; exact Or.inr ⟨_, _, _, _, rfl, rfl, h3⟩
  | onerror => exact same_stay h _
  | shift => exact same_stay h _
  | rep => exact same_stay h _
  | exec => exact same_stay h _
  | _ => exact Or.inr ⟨_, _, _, _, rfl, rfl, h⟩

theorem run_logical {S : Sys σ} (hS : S.multi = true) {tbl : List Text} : ∀ (n cur i : Nat) (g : Glob σ), Here tbl cur i →
    runFrom S n tbl cur g = runFrom S n (logical tbl) i g := by
  intro n
  induction n with
  | zero => intro _ _ _ _; rfl
  | succ n ih =>
    intro cur i g hh
    unfold runFrom
    rw [hS]
    rcases read_logical hh with ⟨h1, h2⟩ | ⟨t, next, -, h1, h2, h3⟩
    · rw [h1, h2]
    · rw [h1, h2]
      simp only
      cases expand (env S) g t with
      | err => rfl
      | ub => rfl
      | ok p =>
        simp only
        cases kind (justify S.indent p.2) with
        | text => exact ih _ _ _ h3
        | note => exact ih _ _ _ h3
        | command =>
          simp only
          have hd : Same tbl (doCmd S (fun tbl g => runFrom S n tbl 0 g) tbl next p.1 (parseCmd (justify S.indent p.2)))
              (doCmd S (fun tbl g => runFrom S n tbl 0 g) (logical tbl) (i + 1) p.1 (parseCmd (justify S.indent p.2))) := by
            unfold doCmd
            split
            · exact Or.inl ⟨rfl, by simp⟩
            · split
              · exact exec_logical hS h3 _ _ _ _
              · exact Or.inr ⟨_, _, _, _, rfl, rfl, h3⟩
          rcases hd with ⟨h4, h5⟩ | ⟨g', c, k, j, h4, h5, h6⟩
          · rw [← h4]
            generalize doCmd S (fun tbl g => runFrom S n tbl 0 g) tbl next p.1 (parseCmd (justify S.indent p.2)) = x at h5
            cases x with
            | none => rfl
            | some x =>
              cases x with
              | ok a => exact absurd rfl (h5 a)
              | err => rfl
              | ub => rfl
          · rw [h4, h5]
            simp only [Out.bind]
            split
            · rfl
            · exact ih _ _ _ h6

/-- `C63`: lines that are continued are the same as one line; where a label or a command begins does not matter. -/
theorem C63_multiline {S : Sys σ} (hS : S.multi = true) (tbl : List Text) (g : Glob σ) (r : Res (Glob σ × Int)) :
    (Ends S tbl 0 g r ↔ Ends S (logical tbl) 0 g r) ∧ ∀ t ∈ logical tbl, continued t = false := by
  refine ⟨⟨fun ⟨n, h⟩ => ⟨n, ?_⟩, fun ⟨n, h⟩ => ⟨n, ?_⟩⟩, logical_not_continued _ _ (Nat.le_refl _)⟩
  · rw [← run_logical hS n 0 0 g (here_start tbl)]; exact h
  · rw [run_logical hS n 0 0 g (here_start tbl)]; exact h

/-! ## Repeat -/

theorem replaceN_one (x : Char) (new : Text) : ∀ (n : Nat) (t : Text), t.length < n → replaceN [x] new n t = t.flatMap fun c => if c = x then new else [c]
  | 0, _, h => by omega
  | n + 1, [], _ => by simp [replaceN]
  | n + 1, c :: t, h => by
    have ih := replaceN_one x new n t (by simpa using h)
    unfold replaceN
    by_cases hc : c = x
    · subst hc; simp [ih]
    · have : ([x].isPrefixOf (c :: t)) = false := by simp [List.isPrefixOf]; tauto
      simp [this, ih, hc]

/-- `C63`: in the command of `$repeat` every underscore (or the character given to `$repeatstring`) stands for the argument. -/
theorem C63_replace (x : Char) (new t : Text) : replace [x] new t = t.flatMap fun c => if c = x then new else [c] :=
  replaceN_one x new _ t (by omega)

/-- The report with one command, for each of the arguments, until one of them aborts; `room` is the memory for the command. -/
inductive Repeats (S : Sys σ) (cmd : Text) (room : Nat) : Glob σ → List Text → Glob σ → Prop
  | nil (g) : Repeats S cmd room g [] g
  | stop {g a as g' c} : (replace g.rpt a cmd).length < room → Ends S (((replace g.rpt a cmd).splitOnP (· == '\n')).filter (· ≠ [])) 0
      { g with argv := ["temp.rep".toList], arg0 := 0, depth := g.depth + 1 } (.ok (g', c)) → c ≠ 0 →
      Repeats S cmd room g (a :: as) { g' with argv := g.argv, arg0 := g.arg0, depth := g.depth }
  | next {g a as g' g''} : (replace g.rpt a cmd).length < room → Ends S (((replace g.rpt a cmd).splitOnP (· == '\n')).filter (· ≠ [])) 0
      { g with argv := ["temp.rep".toList], arg0 := 0, depth := g.depth + 1 } (.ok (g', 0)) →
      Repeats S cmd room { g' with argv := g.argv, arg0 := g.arg0, depth := g.depth } as g'' → Repeats S cmd room g (a :: as) g''

theorem loop_repeats {S : Sys σ} {cmd : Text} {room : Nat} {g g' : Glob σ} {as : List Text} (h : Repeats S cmd room g as g') (hd : g.depth ≠ 0) :
    ∃ n, repeatLoop S (fun tbl g => runFrom S n tbl 0 g) cmd room g as = some (.ok g') := by
  induction h with
  | nil g => exact ⟨0, rfl⟩
  | stop hroom hend hc =>
    obtain ⟨n, hn⟩ := hend
    refine ⟨n, ?_⟩
    unfold repeatLoop
    simp only
    rw [if_neg (by omega)]
    simp only [reportLine, hn, Out.bind, if_neg hd, if_pos hc]
  | next hroom hend _ ih =>
    obtain ⟨n, hn⟩ := hend
    obtain ⟨m, hm⟩ := ih hd
    refine ⟨max n m, ?_⟩
    unfold repeatLoop
    simp only
    rw [if_neg (by omega)]
    simp only [reportLine, run_le S (Nat.le_max_left n m) hn, Out.bind, if_neg hd, ne_eq, not_true_eq_false, if_false]
    exact repeatLoop_mono S (fun _ _ _ => run_le S (Nat.le_max_right n m)) cmd _ _ _ _ hm

/-- `C63`: `$repeat` runs its command for each of its arguments in order; an abort ends the repetition but not the report. -/
theorem C63_repeat {S : Sys σ} {tbl : List Text} {cur : Nat} {g g1 g2 g3 : Glob σ} {fs : Char} {ig : Bool} {name arg cmd rest : Text} {as : List Text}
    (hl : Line S tbl cur g g1 (cmdText fs ig name arg)) (hf : fs = '$' ∨ fs = '#') (hn : Name name) (ha : Trimmed arg) (h : SameName name "repeat")
    (he : expand (env S) g1 arg = .ok (g2, '"' :: (cmd ++ '"' :: rest))) (hq : '"' ∉ cmd) (has : S.args g2.s rest = some as) (hd : g.depth ≠ 0)
    (hr : Repeats S cmd (cmd.length + 10 * as.foldl (fun m a => max m a.length) 0 + 64) g2 as g3) (r : Res (Glob σ × Int)) :
    Ends S tbl cur g r ↔ Ends S tbl (cur + 1) g3 r := by
  have hd2 : g2.depth ≠ 0 := by
    obtain ⟨raw, -, -, h3⟩ := hl
    rw [line_keeps he, line_keeps h3]; exact hd
  obtain ⟨n, hn'⟩ := loop_repeats hr hd2
  refine ends_on (g2 := g3) (rc := 0) (k := cur + 1) hl hf hn ha ⟨n, ?_⟩ (by simp [react]) r
  have hx : extract '"' ('"' :: (cmd ++ '"' :: rest)) = some ([], cmd ++ '"' :: rest) := by simp [extract]
  simp only [execFn, which_repeat h, repeatCmd, he, hx, extract_at rest hq, Option.getD_some, has, hn', Out.bind]

/-! ## The loop over the arguments -/

/-- The loop of the manual. -/
def loopText (name : Text) : List Text :=
  ["$label again".toList, "$goto fin {%0%=0}".toList, '$' :: (name ++ " %1%".toList), "$shift".toList, "$goto again".toList, "$label fin".toList]

section
variable {S : Sys σ} {name : Text}

theorem usual {g : Glob σ} (hp : S.noparse = true) (h0 : 0 ≤ g.arg0) (h1 : g.arg0 < g.argv.length) : (env S).Usual g := ⟨hp, h0, h1⟩

theorem name_not_special (hn : Name name) : ∀ c ∈ name, ¬ Special c := fun c hc => (word_not (hn.2.1 c hc)).1

theorem loop_lines (hn : Name name) (hr : ∀ r ∈ reserved, ¬ SameName name r) : ∃ ls : List RLine, ls.map RLine.text = loopText name ∧ Lines S ls ∧
    ls.findIdx? (RLine.isLabel "fin".toList) = some 5 ∧ ls.findIdx? (RLine.isLabel "again".toList) = some 0 := by
  refine ⟨[.label '$' "label".toList "again".toList, .other "$goto fin {%0%=0}".toList, .other ('$' :: (name ++ " %1%".toList)),
    .other "$shift".toList, .other "$goto again".toList, .label '$' "label".toList "fin".toList], rfl, ?_, rfl, rfl⟩
  have ht : (name ++ " %1%".toList).takeWhile wordCh = name := by
    rw [List.takeWhile_append_of_pos hn.2.1]
    have : (" %1%".toList).takeWhile wordCh = [] := by decide
    rw [this, List.append_nil]
  intro l hl
  simp only [List.mem_cons, List.not_mem_nil, or_false] at hl
  rcases hl with rfl | rfl | rfl | rfl | rfl | rfl
  · exact ⟨⟨Or.inl rfl, by unfold SameName; decide, by decide, by decide⟩, fun _ => by decide⟩
  · exact ⟨⟨by decide, by decide, by unfold SameName; decide⟩, fun _ => by decide⟩
  · refine ⟨⟨?_, ?_, ?_⟩, fun _ => ?_⟩
    · simp only [List.head?_cons]; rintro c h; cases h; decide
    · rw [List.tail_cons, ht]; have := hn.2.2; omega
    · rw [List.tail_cons, ht]; exact fun h => hr "label" (by simp [reserved]) h.2
    · simp [RLine.text, continued]
  · exact ⟨⟨by decide, by decide, by unfold SameName; decide⟩, fun _ => by decide⟩
  · exact ⟨⟨by decide, by decide, by unfold SameName; decide⟩, fun _ => by decide⟩
  · exact ⟨⟨Or.inl rfl, by unfold SameName; decide, by decide, by decide⟩, fun _ => by decide⟩

/-- The states in which the arguments are not shifted out. -/
def InArgs (g : Glob σ) : Prop := 0 ≤ g.arg0 ∧ g.arg0 < g.argv.length

theorem env_std (hp : S.noparse = true) : (env S).Std InArgs := fun _ h => ⟨usual hp h.1 h.2, fun _ => h, fun _ _ => h⟩

theorem line_plain (hp : S.noparse = true) {tbl : List Text} {cur : Nat} {g : Glob σ} {t : Text} (hg : InArgs g) (h : tbl[cur]? = some t)
    (hs : ∀ c ∈ t, ¬ Special c) (hc : continued t = false) : Line S tbl cur g g t :=
  ⟨t, h, fun _ => hc, C62_plain (usual hp hg.1 hg.2) hs⟩

theorem trimmed_two {w v : Text} (hw : Trimmed w) (hw0 : w ≠ []) (hv : Trimmed v) (hv0 : v ≠ []) : Trimmed (w ++ ' ' :: v) := by
  refine ⟨fun c h => hw.1 c ?_, fun c h => hv.2 c ?_⟩
  · cases w with
    | nil => exact absurd rfl hw0
    | cons a w => simpa using h
  · rw [List.getLast?_append, List.getLast?_cons] at h
    cases v with
    | nil => exact absurd rfl hv0
    | cons a v => simpa [List.getLast?_cons] using h

/-- The label and the test of the loop. -/
theorem loop_head (hp : S.noparse = true) (hn : Name name) (hr : ∀ r ∈ reserved, ¬ SameName name r) {yes no : Text} (hy : Word yes ∧ Trimmed yes ∧ atoi yes = some 1)
    (hno : Word no ∧ Trimmed no ∧ atoi no = some 0) (hev : ∀ s n, S.eval s (natToChars n ++ "=0".toList) = (s, some (if n = 0 then yes else no)))
    {g : Glob σ} (hg : InArgs g) (r : Res (Glob σ × Int)) :
    Ends S (loopText name) 0 g r ↔ Ends S (loopText name) (if (remaining (env S) g).length = 0 then 6 else 2) g r := by
  obtain ⟨ls, hls, hL, hfin, -⟩ := loop_lines (S := S) hn hr
  have hl0 : Line S (loopText name) 0 g g (cmdText '$' false "label".toList "again".toList) := line_plain hp hg rfl (by decide) (by decide)
  rw [C63_label hl0 (Or.inl rfl) ⟨by decide, by decide, by decide⟩ ⟨by decide, by decide⟩ (by unfold SameName; decide)]
  have key : ∀ v : Text, v ≠ [] → (if (remaining (env S) g).length = 0 then yes else no) = v →
      Line S (loopText name) 1 g g (cmdText '$' false "goto".toList ("fin".toList ++ ' ' :: v)) := by
    intro v hv hif
    refine ⟨_, rfl, fun _ => by decide, ?_⟩
    have := C62_line (env_std hp) [.atom (.lit "$goto fin ".toList), .brace [.ref none .count, .lit "=0".toList]] g hg (by
      intro t ht
      simp only [List.mem_cons, List.not_mem_nil, or_false] at ht
      rcases ht with rfl | rfl
      · trivial
      · refine ⟨?_, by decide, by decide, by decide⟩
        intro a ha
        simp only [List.mem_cons, List.not_mem_nil, or_false] at ha
        rcases ha with rfl | rfl
        · exact ⟨⟨by simp, trivial⟩, trivial⟩
        · exact ⟨trivial, by simp [Atom.Inner]⟩)
    refine Eq.trans this ?_
    have hb : bodyVal (env S) g [.ref none .count, .lit "=0".toList] = natToChars (remaining (env S) g).length ++ "=0".toList := by
      simp [bodyVal, Atom.val, Ref.val, changed]
    have hE : (env S).eval g (natToChars (remaining (env S) g).length ++ "=0".toList) = (g, some v) := by
      simp only [env, hev]
      rw [← hif]
      rfl
    simp only [lineVal, Tok.val, hb, hE, Atom.val, cmdText, Option.getD_some]
    simp
  by_cases h0 : (remaining (env S) g).length = 0
  · rw [if_pos h0]
    have hl := key yes hy.1.1 (if_pos h0)
    rw [← hls] at hl ⊢
    exact (C63_goto_if hL hl (Or.inl rfl) ⟨by decide, by decide, by decide⟩ (by unfold SameName; decide)
      (trimmed_two ⟨by decide, by decide⟩ (by decide) hy.2.1 hy.1.1) ⟨by decide, by decide, by decide⟩ hy.1 hy.2.2).2.1 (by decide) (by decide) 5 hfin r
  · rw [if_neg h0]
    have hl := key no hno.1.1 (if_neg h0)
    rw [← hls] at hl ⊢
    exact (C63_goto_if hL hl (Or.inl rfl) ⟨by decide, by decide, by decide⟩ (by unfold SameName; decide)
      (trimmed_two ⟨by decide, by decide⟩ (by decide) hno.2.1 hno.1.1) ⟨by decide, by decide, by decide⟩ hno.1 hno.2.2).1 rfl r

/-- `C63`: the loop of the manual (`$label again`, `$goto fin {%0%=0}`, a command on `%1%`, `$shift`, `$goto again`, `$label fin`) runs the command on each of
the arguments of the report once, in their order. -/
theorem C63_loop (hp : S.noparse = true) (hn : Name name) (hr : ∀ r ∈ reserved, ¬ SameName name r) {yes no : Text} (hy : Word yes ∧ Trimmed yes ∧ atoi yes = some 1)
    (hno : Word no ∧ Trimmed no ∧ atoi no = some 0) (hev : ∀ s n, S.eval s (natToChars n ++ "=0".toList) = (s, some (if n = 0 then yes else no)))
    (hok : ∀ s a, 0 ≤ (S.cmd s (name.map toLowerC) a '$').2) {rep : Text} {as : List Text} (has : ∀ a ∈ as, a ≠ [] ∧ Trimmed a) :
    ∀ (k : Nat) (g : Glob σ), g.argv = rep :: as → g.arg0 = (as.length - k : Nat) → k ≤ as.length →
      Ends S (loopText name) 0 g (.ok ({ g with
        s := S.print ((as.drop (as.length - k)).foldl (fun s a => (S.cmd s (name.map toLowerC) a '$').1) g.s) [], arg0 := as.length }, 0)) := by
  obtain ⟨ls, hls, hL, hfin, hagain⟩ := loop_lines (S := S) hn hr
  intro k
  induction k with
  | zero =>
    intro g hargv h0 _
    have hg : InArgs g := ⟨by omega, by rw [hargv, h0]; simp; omega⟩
    have hrem : remaining (env S) g = [] := by simp [remaining, env, hargv, h0]
    rw [loop_head hp hn hr hy hno hev hg, if_pos (by rw [hrem]; rfl)]
    have := C63_end S (loopText name) (cur := 6) g (by simp [loopText])
    have e : g.print S [] = { g with s := S.print ((as.drop (as.length - 0)).foldl (fun s a => (S.cmd s (name.map toLowerC) a '$').1) g.s) [], arg0 := (as.length : Int) } := by
      simp only [Glob.print, Nat.sub_zero, List.drop_length, List.foldl_nil]
      rw [show (as.length : Int) = g.arg0 by rw [h0]; rfl]
    rw [← e]
    exact this
  | succ k ih =>
    intro g hargv h0 hk
    have hg : InArgs g := ⟨by omega, by rw [hargv, h0]; simp; omega⟩
    have hlt : as.length - (k + 1) < as.length := by omega
    have hdrop : as.drop (as.length - (k + 1)) = as[as.length - (k + 1)] :: as.drop (as.length - k) := by
      rw [List.drop_eq_getElem_cons hlt, show as.length - (k + 1) + 1 = as.length - k by omega]
    have hrem : remaining (env S) g = as.drop (as.length - (k + 1)) := by simp [remaining, env, hargv, h0]
    rw [loop_head hp hn hr hy hno hev hg, if_neg (by rw [hrem, hdrop]; simp)]
    obtain ⟨ha0, haT⟩ := has _ (List.getElem_mem hlt)
    generalize as[as.length - (k + 1)] = a at *
    -- the command
    have hl2 : Line S (loopText name) 2 g g (cmdText '$' false name a) := by
      refine ⟨_, rfl, fun _ => by simp [continued], ?_⟩
      have := C62_line (env_std hp) [.atom (.lit ('$' :: (name ++ [' ']))), .atom (.ref none (.arg 1))] g hg (by
        intro t ht
        simp only [List.mem_cons, List.not_mem_nil, or_false] at ht
        rcases ht with rfl | rfl
        · trivial
        · exact ⟨by simp, by decide, by decide⟩)
      have ht : lineText [.atom (.lit ('$' :: (name ++ [' ']))), .atom (.ref none (.arg 1))] = '$' :: (name ++ " %1%".toList) := by
        have hesc : escape ('$' :: (name ++ [' '])) = '$' :: (name ++ [' ']) := by
          have : ∀ t : Text, (∀ c ∈ t, ¬ Special c) → escape t = t := by
            intro t
            induction t with
            | nil => intro _; rfl
            | cons c t ih =>
              intro h
              have := ih fun c hc => h c (by simp [hc])
              unfold escape at this ⊢
              rw [List.flatMap_cons, if_neg (h c (by simp)), this]
              rfl
          refine this _ fun c hc => ?_
          simp only [List.mem_cons, List.mem_append, List.not_mem_nil, or_false] at hc
          rcases hc with rfl | hc | rfl
          · decide
          · exact name_not_special hn c hc
          · decide
        simp only [lineText, List.flatMap_cons, List.flatMap_nil, Tok.text, Atom.text, hesc]
        have : natToChars 1 = ['1'] := by decide +kernel
        simp [Ref.text, this]
      rw [ht] at this
      rw [this]
      have hv : (Ref.arg 1).val (env S) g = some a := by simp [Ref.val, hrem, hdrop]
      simp [lineVal, Tok.val, Atom.val, hv, changed, cmdText, ha0]
    rw [C63_command (g1 := g) (s' := (S.cmd g.s (name.map toLowerC) a '$').1) (c := (S.cmd g.s (name.map toLowerC) a '$').2) hl2 (Or.inl rfl) hn haT hr rfl (hok _ _)]
    -- the shift
    have hl3 : Line S (loopText name) 3 { g with s := (S.cmd g.s (name.map toLowerC) a '$').1 } { g with s := (S.cmd g.s (name.map toLowerC) a '$').1 }
        (cmdText '$' false "shift".toList []) := line_plain hp hg rfl (by decide) (by decide)
    rw [C63_shift hl3 (Or.inl rfl) ⟨by decide, by decide, by decide⟩ (by unfold SameName; decide)]
    -- back to the label
    have hg' : InArgs { g with s := (S.cmd g.s (name.map toLowerC) a '$').1, arg0 := g.arg0 + 1 } :=
      ⟨by show 0 ≤ g.arg0 + 1; omega, by show g.arg0 + 1 < g.argv.length; rw [hargv, h0]; simp; omega⟩
    have hl4 : Line S (loopText name) 4 { g with s := (S.cmd g.s (name.map toLowerC) a '$').1, arg0 := g.arg0 + 1 }
        { g with s := (S.cmd g.s (name.map toLowerC) a '$').1, arg0 := g.arg0 + 1 }
        (cmdText '$' false "goto".toList "again".toList) := line_plain hp hg' rfl (by decide) (by decide)
    have hl5 : Line S (loopText name) 0 { g with s := (S.cmd g.s (name.map toLowerC) a '$').1, arg0 := g.arg0 + 1 }
        { g with s := (S.cmd g.s (name.map toLowerC) a '$').1, arg0 := g.arg0 + 1 }
        (cmdText '$' false "label".toList "again".toList) := line_plain hp hg' rfl (by decide) (by decide)
    have hstep := ih { g with s := (S.cmd g.s (name.map toLowerC) a '$').1, arg0 := g.arg0 + 1 } hargv (by show g.arg0 + 1 = _; omega) (by omega)
    rw [C63_label hl5 (Or.inl rfl) ⟨by decide, by decide, by decide⟩ ⟨by decide, by decide⟩ (by unfold SameName; decide)] at hstep
    rw [← hls] at hl4 hstep ⊢
    rw [(C63_goto hL hl4 (Or.inl rfl) ⟨by decide, by decide, by decide⟩ (by unfold SameName; decide) ⟨by decide, by decide⟩
      ⟨by decide, by decide, by decide⟩).1 0 hagain, hdrop, List.foldl_cons]
    exact hstep

end

/-! ## Where the code does not do what the manual says -/

/-- A system that writes down what is printed and which commands are run. -/
def demo : Sys (List Text) where
  look _ x := if x = "half".toList then some "0.5".toList else none
  eval s t := (s, if t = "0=0".toList then some "1".toList else if t = "0/0".toList then some [] else some "0".toList)
  fn s _ _ := (s, none)
  cmd s name arg _ := if name = "show".toList then (s ++ [arg], 0) else if name = "two".toList then (s, -2) else (s, -1)
  print s t := s ++ [t]
  dump s _ _ := s
  file _ n := if n = "sub".toList then some ["$abort".toList] else if n = "ign".toList then some ["$onerror ignore".toList] else none
  args _ t := some (split seps t)
  clear s := s
  indent := false
  multi := true
  noparse := true

def start : Glob (List Text) := { s := [], argv := ["r".toList], arg0 := 0, rt := -2, pr := 0, rpt := ['_'], depth := 1 }

/-- What is written down, and the code; `none` for undefined behaviour or a run that does not end. -/
def written (tbl : List String) (g : Glob (List Text)) : Option (List Text × Int) :=
  match runFrom demo 100 (tbl.map String.toList) 0 g with
  | some (.ok (h, c)) => some (h.s, c)
  | _ => none

def isUb (tbl : List String) (g : Glob (List Text)) : Bool :=
  match runFrom demo 100 (tbl.map String.toList) 0 g with
  | some .ub => true
  | _ => false

/-- `$goto` with a value that is not zero jumps, but for -1: it is then an error. -/
theorem C63_goto_minus_counterexample : written ["$goto x 2", "a", "$label x", "b"] start = some (["b".toList, []], 0) ∧
    written ["$goto x -2", "a", "$label x", "b"] start = some (["b".toList, []], 0) ∧
    written ["$goto x -1", "a", "$label x", "b"] start = some ([[]], 0) := by decide +kernel

/-- The value of `$goto` is cut to an integer: one half does not jump.  A value that is missing is not written: it jumps. -/
theorem C63_goto_value_counterexample : written ["$goto x %half%", "a", "$label x", "b"] start = some (["a".toList, "b".toList, []], 0) ∧
    written ["$goto x {0/0}", "a", "$label x", "b"] start = some (["b".toList, []], 0) := by decide +kernel

/-- Labels are searched in the text as it is written: one with a macro is not found, nor one behind a dash, which runs as any other label. -/
theorem C63_goto_written_counterexample : written ["$goto 0.5", "a", "$label %half%", "b"] start = some ([[]], -3) ∧
    written ["$goto x", "a", "$-label x", "b"] start = some ([[]], -3) ∧ written ["a", "$-label x", "b"] start = some (["a".toList, "b".toList, []], 0) := by
  decide +kernel

/-- `$OnError quit` changes nothing; only `quitode` is known. -/
theorem C63_quit_counterexample : written ["$onerror ignore", "$onerror quit", "$unknown", "a"] start = some (["a".toList, []], 0) ∧
    written ["$onerror ignore", "$onerror quitode", "$unknown", "a"] start = some ([[]], -4) := by decide +kernel

/-- The reaction to errors that a called report chooses stays when it has ended. -/
theorem C63_reaction_counterexample : written ["$unknown", "a"] start = some ([[]], 0) ∧
    written ["$reportexec ign", "$unknown", "a"] start = some ([[], "a".toList, []], 0) := by decide +kernel

/-- `$abort` in a called report ends the calling one; in a command that is repeated it only ends the repetition. -/
theorem C63_abort_counterexample : written ["$reportexec sub", "a"] start = some ([[], []], -3) ∧
    written ["$repeat \"$abort\" x y", "a"] start = some ([[], "a".toList, []], 0) := by decide +kernel

/-- A command of more than thirty characters is written beyond its array, `abort` or not. -/
theorem C63_long_counterexample : isUb ["$thisisacommandoflengththirtyone"] start = true ∧ isUb ["$-thisisacommandoflengththirtyone"] start = true ∧
    written ["$thisisacommandoflengththirtye", "a"] start = some ([[]], 0) := by decide +kernel

/-- What is repeated is expanded twice more than a line: a percent sign needs to be written eight times. -/
theorem C63_repeat_counterexample : written ["$show %%half%%"] start = some (["%half%".toList, []], 0) ∧
    written ["$repeat \"$show %%half%%\" x"] start = some (["0.5".toList, [], []], 0) ∧
    written ["$repeat \"$show %%%%half%%%%\" x"] start = some (["0.5".toList, [], []], 0) ∧
    written ["$repeat \"$show %%%%%%%%half%%%%%%%%\" x"] start = some (["%half%".toList, [], []], 0) := by decide +kernel

/-- Only ten replacements have room. -/
theorem C63_room_counterexample :
    isUb ["$repeat \"$show ___________\" abcdefghijklmnopqrstuvwxyzabcdefghijklmnopqrstuvwxyzabcdefghijklmnopqrstuvwxyz"] start = true := by decide +kernel

/-- A command can end the report by its code. -/
theorem C63_code_counterexample : written ["$two", "a"] start = some ([[]], 0) ∧ written ["$-two", "a"] start = some ([[]], 0) := by decide +kernel

/-! ## Examples -/

example : written ["a", "$$ b", "$ c", "# d", "$show e \\", " f", "$onerror ignore", "$xyz", "$return", "g"] start =
    some (["a".toList, "$$ b".toList, "e\n f".toList, []], 0) := by decide +kernel

example : Ends demo (loopText "Show".toList) 0 { start with argv := ["r".toList, "a".toList, "b c".toList] }
    (.ok ({ start with argv := ["r".toList, "a".toList, "b c".toList], s := ["a".toList, "b c".toList, []], arg0 := 2 }, 0)) := by
  refine C63_loop (S := demo) (yes := "1".toList) (no := "0".toList) (as := ["a".toList, "b c".toList]) rfl ⟨by decide, by decide, by decide⟩ (by unfold SameName; decide)
    ⟨by unfold Word; decide, by unfold Trimmed; decide, by decide⟩ ⟨by unfold Word; decide, by unfold Trimmed; decide, by decide⟩ ?_ ?_ (by unfold Trimmed; decide) 2
    _ rfl rfl (by decide)
  · intro s n
    by_cases h : n = 0
    · subst h; show (s, if natToChars 0 ++ "=0".toList = "0=0".toList then _ else _) = _
      rw [if_pos (by decide +kernel)]
      rfl
    · have h1 : natToChars n ++ "=0".toList ≠ "0=0".toList := by
        intro he
        have hd := digitsVal_natToChars n
        have : natToChars n = ['0'] := by
          have : natToChars n ++ "=0".toList = ['0'] ++ "=0".toList := he
          exact List.append_cancel_right this
        rw [this] at hd
        have h0 : digitsVal 0 ['0'] = 0 := by decide
        rw [h0] at hd
        exact h (by exact_mod_cast hd.symm)
      have h2 : natToChars n ++ "=0".toList ≠ "0/0".toList := by
        intro he
        have : (natToChars n ++ "=0".toList).reverse = "0/0".toList.reverse := by rw [he]
        simp at this
      simp only [demo, if_neg h1, if_neg h2, if_neg h]
  · intro s a
    have : demo.cmd s ("Show".toList.map toLowerC) a '$' = (s ++ [a], 0) := rfl
    rw [this]
    exact Int.le_refl 0

example : (∃ raw, (loopText "show".toList)[4]? = some raw) ∧ written ["$label again", "$goto fin {%0%=0}", "$show %1%", "$shift", "$goto again", "$label fin"]
    { start with argv := ["r".toList, "x".toList, "y".toList, "z".toList] } = some (["x".toList, "y".toList, "z".toList, []], 0) :=
  ⟨⟨_, rfl⟩, by decide +kernel⟩

/-- A line, a label and a jump that meet the hypotheses above. -/
example : Line demo ["$show %%".toList] 0 start start (cmdText '$' false "show".toList "%".toList) ∧ Name "show".toList ∧ Trimmed "%".toList ∧
    (∀ r ∈ reserved, ¬ SameName "show".toList r) ∧ Printed "a $ b".toList ∧ Note "$ note".toList :=
  ⟨⟨_, rfl, fun _ => by decide, by rfl⟩, ⟨by decide, by decide, by decide⟩, by unfold Trimmed; decide, by unfold SameName; decide, Or.inl (by decide),
    ⟨'$', "note".toList, Or.inl rfl, Or.inr rfl⟩⟩

example : logical ["a \\".toList, "b".toList, "c".toList] = ["a\nb".toList, "c".toList] := by decide +kernel

example : Repeats demo "$show _".toList 100 start ["x".toList] { start with s := ["x".toList, []] } := by
  refine Repeats.next (g' := { start with s := ["x".toList, []], argv := ["temp.rep".toList], depth := 2 }) (by decide +kernel) ⟨5, ?_⟩ (.nil _)
  rfl

end Iode.Report
