import Verif.Lemmas.Import
import Verif.Props.C48
import Verif.Props.C49

/-!
# C72  Imported variables and comments get the names and values of the file and the rules

See `properties.jsonl`.  Files and rules are those of Spec/Import.lean, patterns those of C23.
-/
namespace Iode
namespace Imp
open Yy Asc Lec.Written Asc.Written Printf
open Lec (kept Clean)
open Written (words lineRule Inked Trail RuleFile RuleSource BlankLine rename Chosen Renamed LongName Stripped Invalid defaultRule)

/-! ## Rules -/

theorem readRules_source {rules : List Rule} {file : Option Yy.Text} (h : RuleSource rules file) : readRules file = .ok rules := by
  cases h with
  | none => rfl
  | empty h => rw [readRules, ruleLoop_file h _ (by omega)]; rfl
  | file hne h =>
    rw [readRules, ruleLoop_file h _ (by omega)]
    simp only [Res.bind]
    rw [if_neg hne]

/-- The first rule whose pattern fits a name changes it; without one the object is left out.  The rules say that for every name. -/
theorem C72_rules_partial {rules : List Rule} {file : Option Yy.Text} (hf : RuleSource rules file) (hp : Plain rules) (w : Yy.Text) :
    ∃ o, Chosen (Grep.Cut Grep.noCase) w rules o ∧ ((readRules file).bind fun r => change r w) = .ok o ∧
      ∀ o', Chosen (Grep.Cut Grep.noCase) w rules o' → o' = o := by
  obtain ⟨o, ho⟩ := chosen_total (Grep.Cut Grep.noCase) w rules
  refine ⟨o, ho, ?_, fun o' h' => ?_⟩
  · rw [readRules_source hf]
    exact change_chosen hp ho
  · have := (change_chosen hp ho).symm.trans (change_chosen hp h')
    injection this with e
    exact e.symm

/-- A line of white space in the file of rules makes the import read in front of its buffer. -/
theorem C72_blank_undefined {s : Yy.Text} (h : BlankLine s) : readRules (some s) = .ub := by
  have hspace : ∀ b : Yy.Text, (∀ c ∈ b, Blank c) → cutEnd b = .ub := by
    intro b hb
    rw [cutEnd, List.dropWhile_eq_nil_iff.2]
    intro c hc
    exact blank_space.2 (hb c (by simpa using hc))
  have key : ∀ n, s.length < n → ruleLoop n s = .ub := by
    induction h with
    | @last b hne hb hl =>
      intro n hn
      cases n with
      | zero => omega
      | succ n =>
        rw [ruleLoop, if_neg hne, fgets_last (fun h => (hb _ h).2 rfl) (by omega), hspace b (trail_blank hb)]
        rfl
    | @this b s hb hl =>
      intro n hn
      cases n with
      | zero => omega
      | succ n =>
        rw [ruleLoop, if_neg (by simp), fgets_line (fun h => (hb _ h).2 rfl) hl, hspace]
        · rfl
        · intro c hc
          rcases List.mem_append.1 hc with hc | hc
          · exact (hb c hc).1
          · rw [List.mem_singleton.1 hc]; decide
    | @later l b s hl hb hlen _ ih =>
      intro n hn
      have hnl : '\n' ∉ l ++ b := by
        intro h
        rcases List.mem_append.1 h with h | h
        · exact hl.1 h
        · exact (hb _ h).2 rfl
      cases n with
      | zero => omega
      | succ n =>
        have e0 : l ++ (b ++ '\n' :: s) = (l ++ b) ++ '\n' :: s := by simp
        rw [e0] at hn ⊢
        rw [ruleLoop, if_neg (by simp), fgets_line hnl hlen, List.append_assoc l b ['\n'],
          cutEnd_line hl (by
            intro c hc
            rcases List.mem_append.1 hc with hc | hc
            · exact (hb c hc).1
            · rw [List.mem_singleton.1 hc]; decide)]
        simp only [Res.bind]
        rw [vtoms_line]
        simp only
        have e1 : (l ++ b ++ '\n' :: s).drop (l ++ (b ++ ['\n'])).length = s := by
          have : l ++ b ++ '\n' :: s = (l ++ (b ++ ['\n'])) ++ s := by simp
          rw [this, List.drop_left]
        rw [e1, ih n (by simp at hn; omega)]
  rw [readRules, key _ (by omega)]
  rfl

/-! ## Variables -/

theorem given_ok {p q : Period} {s : Sample} (hp : PerOk p) (hq : PerOk q) (h : Sample.ofPeriods p q = .ok s) :
    givenSample p.toChars q.toChars = .ok true := by
  have hne : ∀ {p : Period}, PerOk p → p.toChars ≠ [] := by
    intro p h
    obtain ⟨y, st, e, _⟩ := h.text
    rw [e]
    simp
  rw [givenSample, if_neg (by simp [hne hp, hne hq]), C02_print_parse p hp.wf hp.per hp.low hp.high]
  simp only [Res.bind]
  rw [C02_print_parse q hq.wf hq.per hq.low hq.high]
  simp only
  rw [h]

theorem clean_of {t : Yy.Text} (h0 : ∀ c ∈ t, c.toNat ≠ 0) : Clean (t.filter kept) := by
  intro c hc
  obtain ⟨h1, h2⟩ := List.mem_filter.1 hc
  simp only [kept, decide_eq_true_eq] at h2
  exact ⟨h0 c h1, h2⟩

theorem lastDef_fits (nb : Nat) (l : List (Yy.Text × List Dbl)) (k : Yy.Text) :
    lastDef true (fits nb l) k = (lastDef true l k).map (fit na nb) := by
  rw [lastDef, lastDef, fits, List.filter_map, List.getLast?_map, Option.map_map, Option.map_map]
  rfl

/-- What a file of variables, a file of rules and two periods give: the sample of the file; each variable that fits a rule is there
    under the name the rule makes of it, with the values of the file, completed with missing values or cut to the number of periods;
    of several variables that get the same name the last one is kept. -/
theorem C72_import_partial {rules : List Rule} {file : Option Yy.Text} (hf : RuleSource rules file) (hp : Plain rules)
    {p q : Period} {s0 : Sample} (hp1 : PerOk p) (hq1 : PerOk q) (h01 : Sample.ofPeriods p q = .ok s0)
    {smp : Sample} (h1 : PerOk smp.start) (h2 : PerOk smp.stop) (hs : Sample.ofPeriods smp.start smp.stop = .ok smp) (hnb : 0 < smp.nb)
    {vars left : List (Yy.Text × List Dbl)} {t : Yy.Text}
    (h : Written.SLaid na ieee smp.start.toChars smp.stop.toChars vars (t.filter kept)) (h0 : ∀ c ∈ t, c.toNat ≠ 0)
    (hk : Renamed (Grep.Cut Grep.noCase) rules vars left) (hn : ∀ e ∈ left, ObjName e.1) :
    ∃ db, importVar file (some t) p.toChars q.toChars = .ok (some ⟨some smp, db⟩) ∧ SMap.Sorted db ∧
      ∀ k, SMap.find k db = (lastDef true left k).map (fit na smp.nb.toNat) := by
  have hx := slaid_expand h1.plain h2.plain h (clean_of h0) 0
  rw [← Lec.expand_kept] at hx
  obtain ⟨db, e1, e2, e3⟩ := puts_ok (ty := .variables) (.inl rfl) (l := fits smp.nb.toNat left) (by
    intro e he
    obtain ⟨x, hx, rfl⟩ := List.mem_map.1 he
    exact hn x hx)
  refine ⟨db, ?_, e2, fun k => ?_⟩
  · rw [importVar, given_ok hp1 hq1 h01]
    simp only [Res.bind, if_true]
    rw [interpretVar_laid (readRules_source hf) hp h1 h2 hs hnb hx hk, e1]
    rfl
  · rw [e3]
    exact lastDef_fits _ _ _

/-- When a rule makes something of a name that is no name nothing is imported. -/
theorem C72_refused_partial {rules : List Rule} {file : Option Yy.Text} (hf : RuleSource rules file) (hp : Plain rules)
    {p q : Period} {s0 : Sample} (hp1 : PerOk p) (hq1 : PerOk q) (h01 : Sample.ofPeriods p q = .ok s0)
    {smp : Sample} (h1 : PerOk smp.start) (h2 : PerOk smp.stop) (hs : Sample.ofPeriods smp.start smp.stop = .ok smp) (hnb : 0 < smp.nb)
    {vars left : List (Yy.Text × List Dbl)} {t : Yy.Text}
    (h : Written.SLaid na ieee smp.start.toChars smp.stop.toChars vars (t.filter kept)) (h0 : ∀ c ∈ t, c.toNat ≠ 0)
    (hk : Renamed (Grep.Cut Grep.noCase) rules vars left) (hn : ∃ e ∈ left, Invalid e.1) :
    importVar file (some t) p.toChars q.toChars = .err := by
  have hx := slaid_expand h1.plain h2.plain h (clean_of h0) 0
  rw [← Lec.expand_kept] at hx
  rw [importVar, given_ok hp1 hq1 h01]
  simp only [Res.bind, if_true]
  rw [interpretVar_laid (readRules_source hf) hp h1 h2 hs hnb hx hk, puts_err (.inl rfl)]
  · rfl
  · obtain ⟨e, he, hi⟩ := hn
    exact ⟨(e.1, fit na smp.nb.toNat e.2), List.mem_map.2 ⟨e, he, rfl⟩, hi⟩

/-- Nothing is imported without two periods that make a sample. -/
theorem C72_periods {first last : Yy.Text} (h : first = [] ∨ last = [] ∨ Period.parse first = .err ∨
      (∃ p, Period.parse first = .ok p ∧ (Period.parse last = .err ∨ ∃ q, Period.parse last = .ok q ∧ Sample.ofPeriods p q = .err)))
    (file t : Option Yy.Text) : importVar file t first last = .ok none := by
  have : givenSample first last = .ok false := by
    unfold givenSample
    by_cases h0 : first = [] ∨ last = []
    · rw [if_pos h0]
    · rw [if_neg h0]
      rcases h with h | h | h | ⟨p, hp, h | ⟨q, hq, h⟩⟩
      · exact absurd (.inl h) h0
      · exact absurd (.inr h) h0
      · rw [h]; rfl
      · rw [hp]; simp only [Res.bind]; rw [h]
      · rw [hp]; simp only [Res.bind]; rw [hq]; simp only; rw [h]
  rw [importVar, this]
  rfl

example : importVar none (some "sample 2000Y1 2001Y1 A 1 2".toList) "2001Y1".toList "2000Y1".toList = .ok none ∧
    importVar none (some "sample 2000Y1 2001Y1 A 1 2".toList) "2000Y1".toList [] = .ok none ∧ importVar none (some "sample 2000Y1 2001Y1 A 1 2".toList) "x".toList "2000Y1".toList = .ok none := by
  decide +kernel

theorem plain_default : Plain [defaultRule] := by
  intro e he
  rw [List.mem_singleton.1 he]
  refine ⟨?_, ?_, trivial⟩
  · unfold Grep.Simple defaultRule
    decide
  · intro _
    exact .inl rfl

theorem rename_plus (n : Nat) (w : Yy.Text) : rename (List.replicate n '+') w = w.take n := by
  induction n generalizing w with
  | zero => rfl
  | succ n ih =>
    cases w with
    | nil => rfl
    | cons c w =>
      rw [List.replicate_succ, rename, if_pos rfl, ih, List.take_succ_cons]

theorem chosen_default (w : Yy.Text) : Chosen (Grep.Cut Grep.noCase) w [defaultRule] (some (w.take 20)) := by
  have hc : Grep.Cut Grep.noCase ['*'] w := by
    rw [Grep.Cut, if_pos rfl]
    exact ⟨w, [], by simp, rfl⟩
  have : Chosen (Grep.Cut Grep.noCase) w [defaultRule] (some ((rename "++++++++++++++++++++".toList w).take 20)) := .this hc
  rw [show "++++++++++++++++++++".toList = List.replicate 20 '+' from by decide, rename_plus, List.take_take] at this
  exact this

theorem renamed_default {α : Type} (l : List (Yy.Text × α)) :
    Renamed (Grep.Cut Grep.noCase) [defaultRule] l (l.map fun e => (e.1.take 20, e.2)) := by
  induction l with
  | nil => exact .nil
  | cons e l ih => exact .keep (chosen_default e.1) ih

theorem long_obj {w : Yy.Text} (h : LongName w) : ObjName (w.take 20) := by
  refine ⟨?_, ?_, fun c hc => h.all c (List.mem_of_mem_take hc), by simp⟩
  · have := h.ne
    cases w with
    | nil => exact absurd rfl this
    | cons c w => simp
  · intro c hc
    refine h.head c ?_
    cases w with
    | nil => simp at hc
    | cons x w => simpa using hc

theorem vlaid_long {missing : Dbl} {rnd : Rat → Dbl} {vars : List (Yy.Text × List Dbl)} {s : Yy.Text}
    (h : Written.VLaid missing rnd vars s) : ∀ e ∈ vars, LongName e.1 := by
  induction h with
  | nil => intro e he; cases he
  | var _ hw _ _ _ _ _ ih =>
    intro e he
    rcases List.mem_cons.1 he with rfl | he
    · exact hw
    · exact ih e he

/-- Without rules all variables are there, names are cut after 20 characters. -/
theorem C72_default {file : Option Yy.Text} (hf : RuleSource [defaultRule] file)
    {p q : Period} {s0 : Sample} (hp1 : PerOk p) (hq1 : PerOk q) (h01 : Sample.ofPeriods p q = .ok s0)
    {smp : Sample} (h1 : PerOk smp.start) (h2 : PerOk smp.stop) (hs : Sample.ofPeriods smp.start smp.stop = .ok smp) (hnb : 0 < smp.nb)
    {vars : List (Yy.Text × List Dbl)} {t : Yy.Text}
    (h : Written.SLaid na ieee smp.start.toChars smp.stop.toChars vars (t.filter kept)) (h0 : ∀ c ∈ t, c.toNat ≠ 0) :
    ∃ db, importVar file (some t) p.toChars q.toChars = .ok (some ⟨some smp, db⟩) ∧ SMap.Sorted db ∧
      ∀ k, SMap.find k db = (lastDef true (vars.map fun e => (e.1.take 20, e.2)) k).map (fit na smp.nb.toNat) := by
  refine C72_import_partial hf plain_default hp1 hq1 h01 h1 h2 hs hnb h h0 (renamed_default vars) ?_
  intro e he
  obtain ⟨x, hx, rfl⟩ := List.mem_map.1 he
  generalize t.filter kept = y at h
  cases h with
  | mk _ _ _ _ _ _ h => exact long_obj (vlaid_long h x hx)

/-- Importing a file of variables without rules gives what loading it gives. -/
theorem C72_load {p q : Period} {s0 : Sample} (hp1 : PerOk p) (hq1 : PerOk q) (h01 : Sample.ofPeriods p q = .ok s0)
    {smp : Sample} (h1 : PerOk smp.start) (h2 : PerOk smp.stop) (hs : Sample.ofPeriods smp.start smp.stop = .ok smp) (hnb : 0 < smp.nb)
    {vars : List (Yy.Text × List Dbl)} {t : Yy.Text}
    (h : SLaid na ieee smp.start.toChars smp.stop.toChars vars (t.filter kept)) (h0 : ∀ c ∈ t, c.toNat ≠ 0) :
    ∃ db db', loadVars t = .ok (some ⟨some smp, db⟩) ∧ importVar none (some t) p.toChars q.toChars = .ok (some ⟨some smp, db'⟩) ∧
      ∀ k, SMap.find k db' = SMap.find k db := by
  have hv : ∀ {s}, VLaid na ieee vars s → Written.VLaid na ieee vars s ∧ vars.map (fun e => (e.1.take 20, e.2)) = vars := by
    intro s hs
    clear h h0
    induction hs with
    | nil hg => exact ⟨.nil hg, rfl⟩
    | var hg hw he hvs _ ih =>
      refine ⟨.var hg ⟨hw.ne, hw.head, hw.all, by have := hw.short; omega⟩ hw.notNa
        (Ne.symm (hw.free "sample" (by decide))) he hvs ih.1, ?_⟩
      rw [List.map_cons, ih.2, List.take_of_length_le hw.short]
  obtain ⟨db, e1, _, e2⟩ := C48_load h1 h2 hs hnb h h0
  have h' : Written.SLaid na ieee smp.start.toChars smp.stop.toChars vars (t.filter kept) ∧
      vars.map (fun e => (e.1.take 20, e.2)) = vars := by
    generalize t.filter kept = y at h
    cases h with
    | mk a1 a2 a3 a4 a5 a6 h => exact ⟨.mk a1 a2 a3 a4 a5 a6 (hv h).1, (hv h).2⟩
  obtain ⟨db', e3, _, e4⟩ := C72_default .none hp1 hq1 h01 h1 h2 hs hnb h'.1 h0
  refine ⟨db, db', e1, e3, fun k => ?_⟩
  rw [e4, e2, h'.2]
  rfl

/-- The periods that are given are only looked at: whatever they are, all periods of the file are imported. -/
theorem C72_periods_counterexample {p q p' q' : Period} {s0 s1 : Sample} (hp : PerOk p) (hq : PerOk q) (h0 : Sample.ofPeriods p q = .ok s0)
    (hp' : PerOk p') (hq' : PerOk q') (h1 : Sample.ofPeriods p' q' = .ok s1) (file t : Option Yy.Text) :
    importVar file t p.toChars q.toChars = importVar file t p'.toChars q'.toChars := by
  rw [importVar, importVar, given_ok hp hq h0, given_ok hp' hq' h1]

/-- A file that does not begin with `sample` is not refused: the import uses a null pointer. -/
theorem C72_header_undefined {rules : List Rule} {file : Option Yy.Text} (hf : RuleSource rules file)
    {p q : Period} {s0 : Sample} (hp1 : PerOk p) (hq1 : PerOk q) (h01 : Sample.ofPeriods p q = .ok s0)
    {g w s t : Yy.Text} (hg : Gap g) (hw : LongName w) (hk : w ≠ "sample".toList) (hs : NameEnd s)
    (h : t.filter kept = g ++ (w ++ s)) (h0 : ∀ c ∈ t, c.toNat ≠ 0) :
    importVar file (some t) p.toChars q.toChars = .ub := by
  have hc := clean_of h0
  rw [h] at hc
  obtain ⟨g', c1, k1, e1⟩ := Lec.expand_gap hg hc.left 0
  obtain ⟨c2, e2⟩ := Lec.expand_plains (fun c hc => Lec.nameCh_plain (hw.all c hc)) c1
  have hs' := Lec.nameEnd_expand hs hc.right.right c2
  have he : expand 0 t = g' ++ (w ++ expand c2 s) := by rw [Lec.expand_kept, h, e1, e2]
  rw [importVar, given_ok hp1 hq1 h01]
  simp only [Res.bind, if_true]
  rw [interpretVar, readRules_source hf]
  simp only [Res.bind]
  rw [he, readHeader, (reads_gap (reads_longName hw hk hs') k1).lxs]
  simp only [Res.bind]
  rw [if_neg (by simp)]

/-! ## Comments -/

theorem expand_noNul {s : Yy.Text} (hc : Clean s) (col : Nat) : ∀ c ∈ expand col s, c.toNat ≠ 0 := by
  induction s generalizing col with
  | nil => intro c h; cases h
  | cons x s ih =>
    by_cases h9 : x.toNat = 9
    · rw [Lec.expand_tab h9]
      intro c h
      rcases List.mem_append.1 h with h | h
      · rw [(List.mem_replicate.1 h).2]
        decide
      · exact ih hc.tail _ c h
    · obtain ⟨c1, e⟩ := Lec.expand_plain (Lec.plain_of (hc x (by simp)) h9) col
      rw [e]
      intro c h
      rcases List.mem_cons.1 h with rfl | h
      · exact (hc c (by simp)).1
      · exact ih hc.tail _ c h

/-- What a file of comments and a file of rules give. -/
theorem C72_comments_partial {rules : List Rule} {file : Option Yy.Text} (hf : RuleSource rules file) (hp : Plain rules)
    {cmts left : List (Yy.Text × Yy.Text)} {t : Yy.Text} (h : Written.CLaid cmts (t.filter kept)) (h0 : ∀ c ∈ t, c.toNat ≠ 0)
    (hk : Renamed (Grep.Cut Grep.noCase) rules cmts left) (hn : ∀ e ∈ left, ObjName e.1) :
    ∃ db, importCmt file (some t) = .ok (some db) ∧ SMap.Sorted db ∧ ∀ k, SMap.find k db = lastDef false left k := by
  have hc := clean_of h0
  have hx := claid_expand h hc 0
  have hlen := claid_length hx
  have hz : ∀ c ∈ expand 0 (t.filter kept), c.toNat ≠ 0 := by
    intro c hc' h0'
    exact expand_noNul hc 0 c hc' h0'
  rw [← Lec.expand_kept] at hx hlen hz
  obtain ⟨db, e1, e2, e3⟩ := puts_ok (ty := .comments) (.inr rfl) hn
  refine ⟨db, ?_, e2, e3⟩
  rw [importCmt, readRules_source hf]
  simp only [Res.bind]
  rw [cmtLoop_laid hp hx hk hz _ _ (by omega), e1]

/-! ## The other formats and the API -/

theorem rotLoop_nil {rules : List Rule} {dim : Nat} {toc : List Yy.Text} (n : Nat) : ∀ (st : St) (cv cy shift : Nat)
    {o : Option (SMap (List Dbl))}, rotLoop rules dim toc n st cv cy shift [] = .ok o → o = none ∨ o = some [] := by
  induction n with
  | zero =>
    intro st cv cy shift o h
    rw [rotLoop] at h
    injection h with e
    exact .inl e.symm
  | succ n ih =>
    intro st cv cy shift o h
    rw [rotLoop] at h
    cases hl : lxs keys st with
    | err => rw [hl] at h; cases h
    | ub => rw [hl] at h; cases h
    | ok x =>
      rw [hl] at h
      simp only [Res.bind] at h
      by_cases he : x.1 = .raw .eof
      · rw [if_pos he] at h
        injection h with e
        exact .inr e.symm
      · rw [if_neg he] at h
        revert h
        generalize (if decide (toc.length ≤ cv) = true then 0 else cv) = cv'
        generalize (if decide (toc.length ≤ cv) = true then cy + 1 else cy) = cy'
        generalize (if decide (toc.length ≤ cv) = true then cy' else shift) = sh'
        intro h
        cases ht : toc[cv']? with
        | none => rw [ht] at h; cases h
        | some w =>
          rw [ht] at h
          simp only at h
          by_cases hw : 256 ≤ w.length
          · rw [if_pos hw] at h; cases h
          · rw [if_neg hw] at h
            cases hr : real keys (unread x.2) with
            | err => rw [hr] at h; cases h
            | ub => rw [hr] at h; cases h
            | ok v =>
              rw [hr] at h
              simp only at h
              by_cases hd : dim < sh'
              · rw [if_pos hd] at h
                exact ih _ _ _ _ h
              · rw [if_neg hd] at h
                cases hch : change rules w with
                | err => rw [hch] at h; cases h
                | ub => rw [hch] at h; cases h
                | ok o' =>
                  rw [hch] at h
                  cases o' with
                  | none => exact ih _ _ _ _ h
                  | some name => exact ih _ _ _ _ h

/-- No variable is ever imported from a file in rotated ascii: the one that is missing is not created. -/
theorem C72_rotated_counterexample (n : Nat) (file t : Option Yy.Text) (db : VDb) (h : interpretRot n file t = .ok (some db)) :
    db.vars = [] := by
  rw [interpretRot] at h
  cases hr : readRules file with
  | err => rw [hr] at h; cases h
  | ub => rw [hr] at h; cases h
  | ok rules =>
    rw [hr] at h
    simp only [Res.bind] at h
    cases t with
    | none => cases h
    | some t =>
      simp only at h
      cases hh : readHeader ⟨.err, false, expand 0 t⟩ with
      | err => rw [hh] at h; cases h
      | ub => rw [hh] at h; cases h
      | ok p =>
        rw [hh] at h
        simp only at h
        cases hp : p.1 with
        | none => rw [hp] at h; cases h
        | some smp =>
          rw [hp] at h
          simp only at h
          cases ht : tocLoop (p.2.text.length + 2) p.2 [] with
          | err => rw [ht] at h; cases h
          | ub => rw [ht] at h; cases h
          | ok q =>
            rw [ht] at h
            simp only at h
            cases hq : q.1 with
            | none => rw [hq] at h; cases h
            | some toc =>
              rw [hq] at h
              simp only at h
              cases hl : rotLoop rules smp.nb.toNat toc n q.2 0 0 0 [] with
              | err => rw [hl] at h; cases h
              | ub => rw [hl] at h; cases h
              | ok o =>
                rw [hl] at h
                rcases rotLoop_nil _ _ _ _ _ hl with rfl | rfl
                · cases h
                · simp only at h
                  injection h with e
                  injection e with e
                  rw [← e]

/-- For three formats neither of the functions that read variables is used: names and values are what was in memory. -/
theorem C72_formats_undefined (f : Format) : firstRead f = .ub ↔ f = .nis ∨ f = .gem ∨ f = .prn := by
  cases f <;> decide

/-- `import_var` with periods takes its arguments in the wrong order: the last period is the name of the file of rules, the file to be
    written is the first period. -/
theorem C72_api_counterexample (files : Yy.Text → Option Yy.Text) (canSave : Yy.Text → Bool) (input save : Yy.Text) (first last : Period)
    (rule : Yy.Text) (h : files last.toChars = none ∨ ∀ p, Period.parse save ≠ .ok p) (db : VDb) :
    apiImportPeriods files canSave input save first last rule ≠ .ok db := by
  intro e
  rw [apiImportPeriods, apiImport] at e
  rcases h with h | h
  · rw [if_pos h] at e
    cases e
  · split at e
    · cases e
    · split at e
      · cases e
      · split at e
        · cases e
        · cases hs : Period.parse save with
          | ok p => exact h p hs
          | err => rw [hs] at e; cases e
          | ub => rw [hs] at e; cases e

/-! ## Examples -/

/-- Two rules, and a line that is none. -/
def exRules : Yy.Text := "A_* --+\nB* T_+++ \nthis is none\n".toList

theorem exRules_file : RuleSource [("A_*".toList, "--+".toList), ("B*".toList, "T_+++".toList)] (some exRules) := by
  refine .file (by decide) ?_
  have h1 : RuleFile (lineRule "this is none".toList ++ []) ("this is none".toList ++ ([] ++ '\n' :: [])) :=
    .line ⟨by decide, 'e', by decide, by decide⟩ (by intro c h; cases h) (by decide) .nil
  have h2 : RuleFile (lineRule "B* T_+++".toList ++ _) ("B* T_+++".toList ++ ([' '] ++ '\n' :: _)) :=
    .line ⟨by decide, '+', by decide, by decide⟩ (by intro c h; rw [List.mem_singleton.1 h]; decide) (by decide) h1
  have h3 : RuleFile (lineRule "A_* --+".toList ++ _) ("A_* --+".toList ++ ([] ++ '\n' :: _)) :=
    .line ⟨by decide, '+', by decide, by decide⟩ (by intro c h; cases h) (by decide) h2
  have e1 : lineRule "A_* --+".toList ++ (lineRule "B* T_+++".toList ++ (lineRule "this is none".toList ++ [])) =
    [("A_*".toList, "--+".toList), ("B*".toList, "T_+++".toList)] := by decide +kernel
  rw [e1] at h3
  exact h3

theorem exRules_plain : Plain [("A_*".toList, "--+".toList), ("B*".toList, "T_+++".toList)] := by
  intro e he
  simp only [List.mem_cons, List.not_mem_nil, or_false] at he
  rcases he with rfl | rfl
  · refine ⟨by unfold Grep.Simple; decide, ?_⟩
    exact ⟨by decide, by decide, fun _ => .inl rfl, trivial⟩
  · refine ⟨by unfold Grep.Simple; decide, ?_⟩
    exact ⟨by decide, fun _ => .inl rfl, trivial⟩

example : ∃ o, Chosen (Grep.Cut Grep.noCase) "A_X".toList [("A_*".toList, "--+".toList), ("B*".toList, "T_+++".toList)] o ∧
    ((readRules (some exRules)).bind fun r => change r "A_X".toList) = .ok o ∧
    ∀ o', Chosen (Grep.Cut Grep.noCase) "A_X".toList [("A_*".toList, "--+".toList), ("B*".toList, "T_+++".toList)] o' → o' = o :=
  C72_rules_partial exRules_file exRules_plain _

/-- Characters are taken, left out and added; case does not matter; a name without rule is left out. -/
example : ((readRules (some exRules)).bind fun r => change r "A_X".toList) = .ok (some "X".toList) ∧
    ((readRules (some exRules)).bind fun r => change r "b_Y".toList) = .ok (some "T_b_Y".toList) ∧
    ((readRules (some exRules)).bind fun r => change r "C".toList) = .ok none := by decide +kernel

/-- Three variables. -/
def exVars : Yy.Text := "sample 2000Y1 2001Y1\nA_X 1 na\nB_Y -3\nC 5 6 7\n".toList

theorem gap_one : Gap [' '] := .white (by decide) .nil
theorem gap_nl : Gap ['\n'] := .white (by decide) .nil

theorem numeral_one {c : Char} (h : Digit c) : Numeral [c] (dec [c] : Nat) :=
  .inl ⟨by intro x hx; rw [List.mem_singleton.1 hx]; exact h, by simp, by simp, by simp⟩

theorem end_of {c : Char} (h : White c) (s : Yy.Text) : NameEnd (c :: s) ∧ NumEnd (c :: s) :=
  gap_ends (g := [c]) (.white h .nil) (by simp) s

theorem exVars_laid : Written.SLaid na ieee years.start.toChars years.stop.toChars
    [("A_X".toList, [ieee 1, na]), ("B_Y".toList, [ieee (-3)]), ("C".toList, [ieee 5, ieee 6, ieee 7])] (exVars.filter kept) := by
  have d1 : ((dec ['1'] : Nat) : Rat) = 1 := by decide +kernel
  have d3 : ((dec ['3'] : Nat) : Rat) = 3 := by decide +kernel
  have d5 : ((dec ['5'] : Nat) : Rat) = 5 := by decide +kernel
  have d6 : ((dec ['6'] : Nat) : Rat) = 6 := by decide +kernel
  have d7 : ((dec ['7'] : Nat) : Rat) = 7 := by decide +kernel
  have n1 := numeral_one (c := '1') (by decide)
  have n3 := numeral_one (c := '3') (by decide)
  have n5 := numeral_one (c := '5') (by decide)
  have n6 := numeral_one (c := '6') (by decide)
  have n7 := numeral_one (c := '7') (by decide)
  rw [d1] at n1; rw [d3] at n3; rw [d5] at n5; rw [d6] at n6; rw [d7] at n7
  have w (c : Char) (h : White c) (s : Yy.Text) := end_of h s
  have v3 : Vals na ieee [ieee 5, ieee 6, ieee 7] " 5 6 7\n".toList "\n".toList :=
    .num gap_one n5 (by decide) (w ' ' (by decide) _).2 (.num gap_one n6 (by decide) (w ' ' (by decide) _).2
      (.num gap_one n7 (by decide) (w '\n' (by decide) _).2 .nil))
  have l3 : Written.VLaid na ieee [("C".toList, [ieee 5, ieee 6, ieee 7])] "\nC 5 6 7\n".toList :=
    .var gap_nl ⟨by decide, by decide, by decide, by decide⟩ (by decide) (by decide) (w ' ' (by decide) _).1 v3 (.nil gap_nl)
  have v2 : Vals na ieee [ieee (-3)] " -3\nC 5 6 7\n".toList "\nC 5 6 7\n".toList :=
    .neg gap_one .nil n3 (by decide) (w '\n' (by decide) _).2 .nil
  have l2 : Written.VLaid na ieee [("B_Y".toList, [ieee (-3)]), ("C".toList, [ieee 5, ieee 6, ieee 7])] "\nB_Y -3\nC 5 6 7\n".toList :=
    .var gap_nl ⟨by decide, by decide, by decide, by decide⟩ (by decide) (by decide) (w ' ' (by decide) _).1 v2 l3
  have v1 : Vals na ieee [ieee 1, na] " 1 na\nB_Y -3\nC 5 6 7\n".toList "\nB_Y -3\nC 5 6 7\n".toList :=
    .num gap_one n1 (by decide) (w ' ' (by decide) _).2 (.na gap_one (w '\n' (by decide) _).1 .nil)
  have l1 : Written.VLaid na ieee [("A_X".toList, [ieee 1, na]), ("B_Y".toList, [ieee (-3)]), ("C".toList, [ieee 5, ieee 6, ieee 7])]
      "\nA_X 1 na\nB_Y -3\nC 5 6 7\n".toList :=
    .var gap_nl ⟨by decide, by decide, by decide, by decide⟩ (by decide) (by decide) (w ' ' (by decide) _).1 v1 l2
  have e : exVars.filter kept = [] ++ ("sample".toList ++ ([' '] ++ (years.start.toChars ++ ([' '] ++ (years.stop.toChars ++
      "\nA_X 1 na\nB_Y -3\nC 5 6 7\n".toList))))) := by decide +kernel
  rw [e]
  exact .mk .nil gap_one (by simp) gap_one (by simp) (w '\n' (by decide) _).2 l1

theorem cut_iff {p s : Yy.Text} (h : Grep.Simple p) (hr : Grep.NoStarRun p) (b : Bool) (e : Grep.grep Grep.noCase '*' p s = .ok b) :
    b = true ↔ Grep.Cut Grep.noCase p s := by
  obtain ⟨r, e1, e2⟩ := Grep.C23_simple_partial Grep.noCase p s h hr
  rw [e] at e1
  injection e1 with e1
  rwa [e1]

theorem exVars_renamed : Renamed (Grep.Cut Grep.noCase) [("A_*".toList, "--+".toList), ("B*".toList, "T_+++".toList)]
    [("A_X".toList, [ieee 1, na]), ("B_Y".toList, [ieee (-3)]), ("C".toList, [ieee 5, ieee 6, ieee 7])]
    [("X".toList, [ieee 1, na]), ("T_B_Y".toList, [ieee (-3)])] := by
  have hA := exRules_plain ("A_*".toList, "--+".toList) (by simp)
  have hB := exRules_plain ("B*".toList, "T_+++".toList) (by simp)
  have no : ∀ {p s : Yy.Text}, Grep.Simple p → Grep.NoStarRun p → Grep.grep Grep.noCase '*' p s = .ok false → ¬ Grep.Cut Grep.noCase p s :=
    fun h hr e hc => by cases (cut_iff h hr false e).2 hc
  refine .keep (.this ((cut_iff hA.1 hA.2 true (by decide +kernel)).1 rfl)) ?_
  refine .keep (.later (no hA.1 hA.2 (by decide +kernel)) (.this ((cut_iff hB.1 hB.2 true (by decide +kernel)).1 rfl))) ?_
  exact .drop (.later (no hA.1 hA.2 (by decide +kernel)) (.later (no hB.1 hB.2 (by decide +kernel)) .none)) .nil

example : ∃ db, importVar (some exRules) (some exVars) (⟨2000, 1, 'Y'⟩ : Period).toChars (⟨2001, 1, 'Y'⟩ : Period).toChars = .ok (some ⟨some years, db⟩) ∧ SMap.Sorted db ∧
    ∀ k, SMap.find k db = (lastDef true [("X".toList, [ieee 1, na]), ("T_B_Y".toList, [ieee (-3)])] k).map (fit na years.nb.toNat) :=
  C72_import_partial (smp := years) exRules_file exRules_plain perOk_2000 perOk_2001
    (s0 := years) (by decide +kernel) perOk_2000 perOk_2001 (by decide +kernel) (by decide) exVars_laid (by decide +kernel) exVars_renamed
    (by
      simp only [List.mem_cons, List.not_mem_nil, or_false, forall_eq_or_imp, forall_eq]
      exact ⟨⟨by decide, by decide, by decide, by decide⟩, by decide, by decide, by decide, by decide⟩)

/-- The same by computation: a value that is missing at the end. -/
example : importVar (some exRules) (some exVars) "2000Y1".toList "2001Y1".toList =
    .ok (some ⟨some years, [("T_B_Y".toList, [.num (-3), na]), ("X".toList, [.num 1, na])]⟩) := by decide +kernel

example : ∃ db, importVar none (some exVars) (⟨2000, 1, 'Y'⟩ : Period).toChars (⟨2001, 1, 'Y'⟩ : Period).toChars = .ok (some ⟨some years, db⟩) ∧ SMap.Sorted db ∧
    ∀ k, SMap.find k db = (lastDef true [("A_X".toList, [ieee 1, na]), ("B_Y".toList, [ieee (-3)]), ("C".toList, [ieee 5, ieee 6, ieee 7])] k).map (fit na years.nb.toNat) :=
  C72_default (smp := years) .none perOk_2000 perOk_2001
    (s0 := years) (by decide +kernel) perOk_2000 perOk_2001 (by decide +kernel) (by decide) exVars_laid (by decide +kernel)

/-- Without rules all three variables are there; a long name is cut. -/
example : importVar none (some "sample 2000Y1 2001Y1\nAAAAABBBBBCCCCCDDDDDEEEEE 5 6 7\n b .\n".toList) "1990Q1".toList "1990Q2".toList =
    .ok (some ⟨some years, [("AAAAABBBBBCCCCCDDDDD".toList, [.num 5, .num 6]), ("B".toList, [na, na])]⟩) := by decide +kernel

/-- A rule that makes `1A_X` of `A_X`. -/
example : importVar (some "A* 1+++".toList) (some exVars) (⟨2000, 1, 'Y'⟩ : Period).toChars (⟨2001, 1, 'Y'⟩ : Period).toChars = .err := by
  have hp : Plain [("A*".toList, "1+++".toList)] := by
    intro e he
    rw [List.mem_singleton.1 he]
    exact ⟨by unfold Grep.Simple; decide, by decide, fun _ => .inl rfl, trivial⟩
  have hf : RuleSource [("A*".toList, "1+++".toList)] (some "A* 1+++".toList) := by
    refine .file (by decide) ?_
    have h : RuleFile (lineRule "A* 1+++".toList) ("A* 1+++".toList ++ []) :=
      .last ⟨by decide, '+', by decide, by decide⟩ (by intro c h; cases h) (by decide)
    rwa [show lineRule "A* 1+++".toList = [("A*".toList, "1+++".toList)] by decide +kernel, List.append_nil] at h
  have hA := hp ("A*".toList, "1+++".toList) (by simp)
  obtain ⟨l, hl⟩ := renamed_total (Grep.Cut Grep.noCase) [("A*".toList, "1+++".toList)]
    [("B_Y".toList, [ieee (-3)]), ("C".toList, [ieee 5, ieee 6, ieee 7])]
  exact C72_refused_partial (smp := years) hf hp perOk_2000 perOk_2001
    (s0 := years) (by decide +kernel) perOk_2000 perOk_2001 (by decide +kernel) (by decide) exVars_laid (by decide +kernel)
    (.keep (.this ((cut_iff hA.1 hA.2 true (by decide +kernel)).1 rfl)) hl)
    ⟨_, List.mem_cons_self .., .inr (.inl ⟨'1', by decide, by decide⟩)⟩

/-- A saved database is imported as it is loaded. -/
example : ∃ db db', loadVars (saveVars years tenths) = .ok (some ⟨some years, db⟩) ∧
    importVar none (some (saveVars years tenths)) (⟨2000, 1, 'Y'⟩ : Period).toChars (⟨2001, 1, 'Y'⟩ : Period).toChars =
      .ok (some ⟨some years, db'⟩) ∧ ∀ k, SMap.find k db' = SMap.find k db := by
  have hpl := save_plain tenths_saved
  have e : (saveVars years tenths).filter kept = saveVars years tenths := by
    rw [List.filter_eq_self]
    intro c hc
    have := (hpl c hc).2.2
    simp [kept, this]
  exact C72_load perOk_2000 perOk_2001 (s0 := years) (by decide +kernel) tenths_saved.start tenths_saved.stop tenths_saved.whole tenths_saved.nb
    (by rw [e]; exact slaid_save tenths_saved) fun c hc => (hpl c hc).1

/-- The periods have no effect. -/
example : importVar none (some exVars) (⟨1990, 1, 'Y'⟩ : Period).toChars (⟨1990, 1, 'Y'⟩ : Period).toChars =
    importVar none (some exVars) (⟨2000, 1, 'Y'⟩ : Period).toChars (⟨2001, 1, 'Y'⟩ : Period).toChars :=
  have h : PerOk ⟨1990, 1, 'Y'⟩ := ⟨⟨1, by decide, by decide, by decide⟩, by simp [IsPeriodicity], by decide, by decide⟩
  C72_periods_counterexample h h (s0 := ⟨⟨1990, 1, 'Y'⟩, ⟨1990, 1, 'Y'⟩, 1⟩) (by decide +kernel) perOk_2000 perOk_2001 (s1 := years)
    (by decide +kernel) _ _

example : readRules (some "A* B++\n\nC D\n".toList) = .ub :=
  C72_blank_undefined (.later (l := "A* B++".toList) (b := []) ⟨by decide, '+', by decide, by decide⟩ (by intro c h; cases h) (by decide)
    (.this (b := []) (by intro c h; cases h) (by decide)))

example : importVar none (some "A 1 2\n".toList) (⟨2000, 1, 'Y'⟩ : Period).toChars (⟨2001, 1, 'Y'⟩ : Period).toChars = .ub :=
  C72_header_undefined .none perOk_2000 perOk_2001 (s0 := years) (by decide +kernel) (g := []) (w := ['A']) (s := " 1 2\n".toList) .nil
    ⟨by decide, by decide, by decide, by decide⟩ (by decide) (end_of (by decide) _).1 (by decide +kernel) (by decide +kernel)

/-- Two comments. -/
def exCmts : Yy.Text := "A_X \"first  \" B\"second \\\"one\\\"\"\n".toList

example : ∃ db, importCmt (some exRules) (some exCmts) = .ok (some db) ∧ SMap.Sorted db ∧
    ∀ k, SMap.find k db = lastDef false [("X".toList, "first".toList), ("T_B".toList, "second \"one\"".toList)] k := by
  have hl : ∀ {t : Yy.Text}, (∀ c ∈ t, c ≠ '"' ∧ c ≠ '\\' ∧ c ≠ '^' ∧ c.toNat ≠ 9) → Lit t t := by
    intro t h
    induction t with
    | nil => exact .nil
    | cons c t ih =>
      obtain ⟨h1, h2, h3, h4⟩ := h c (by simp)
      exact .plain h1 h2 h3 h4 (ih fun c hc => h c (by simp [hc]))
  have hla : ∀ {t u v : Yy.Text}, (∀ c ∈ t, c ≠ '"' ∧ c ≠ '\\' ∧ c ≠ '^' ∧ c.toNat ≠ 9) → Lit u v → Lit (t ++ u) (t ++ v) := by
    intro t u v h hu
    induction t with
    | nil => exact hu
    | cons c t ih =>
      obtain ⟨h1, h2, h3, h4⟩ := h c (by simp)
      exact .plain h1 h2 h3 h4 (ih fun c hc => h c (by simp [hc]))
  have l2 : Lit "second \"one\"".toList "second \\\"one\\\"".toList :=
    hla (t := "second ".toList) (by decide +kernel) (.esc (.inl rfl) (hla (t := "one".toList) (by decide +kernel) (.esc (.inl rfl) .nil)))
  have c2 : Written.CLaid [("B".toList, "second \"one\"".toList)] " B\"second \\\"one\\\"\"\n".toList :=
    .cmt (g := [' ']) (w := ['B']) (g' := []) gap_one ⟨by decide, by decide, by decide, by decide⟩ .nil l2
      ⟨[], by simp, fun c h => (by cases h), by decide +kernel⟩ (.nil gap_nl)
  have c1 : Written.CLaid [("A_X".toList, "first".toList), ("B".toList, "second \"one\"".toList)] exCmts :=
    .cmt (g := []) (w := "A_X".toList) (g' := [' ']) .nil ⟨by decide, by decide, by decide, by decide⟩ gap_one
      (hl (t := "first  ".toList) (by decide +kernel)) ⟨"  ".toList, by decide, by decide, by decide⟩ c2
  have hA := exRules_plain ("A_*".toList, "--+".toList) (by simp)
  have hB := exRules_plain ("B*".toList, "T_+++".toList) (by simp)
  refine C72_comments_partial (cmts := [("A_X".toList, "first".toList), ("B".toList, "second \"one\"".toList)]) exRules_file exRules_plain
    (by rwa [show exCmts.filter kept = exCmts by decide +kernel]) (by decide +kernel) ?_ ?_
  · refine .keep (.this ((cut_iff hA.1 hA.2 true (by decide +kernel)).1 rfl)) ?_
    refine .keep (.later (fun hc => ?_) (.this ((cut_iff hB.1 hB.2 true (by decide +kernel)).1 rfl))) .nil
    cases (cut_iff hA.1 hA.2 false (by decide +kernel)).2 hc
  · simp only [List.mem_cons, List.not_mem_nil, or_false, forall_eq_or_imp, forall_eq]
    exact ⟨⟨by decide, by decide, by decide, by decide⟩, by decide, by decide, by decide, by decide⟩

example : importCmt (some exRules) (some exCmts) = .ok (some [("T_B".toList, "second \"one\"".toList), ("X".toList, "first".toList)]) := by
  decide +kernel

/-- A whole file in rotated ascii is read, and nothing is there. -/
example : interpretRot 10 none (some "sample 2000Y1 2001Y1\nA B\n1 2\n3 4\n".toList) = .ok (some ⟨some years, []⟩) := by decide +kernel

/-- A call of `import_var` with periods: all files are there, but not one named `2001Y1`. -/
example (db : VDb) : apiImportPeriods (fun f => if f = "in.asc".toList then some exVars else if f = "r.txt".toList then some exRules else none)
    (fun _ => true) "in.asc".toList "out.var".toList ⟨2000, 1, 'Y'⟩ ⟨2001, 1, 'Y'⟩ "r.txt".toList ≠ .ok db :=
  C72_api_counterexample _ _ _ _ _ _ _ (.inl (by decide +kernel)) db

/-- With texts instead of periods the same call works. -/
example : apiImport (fun f => if f = "in.asc".toList then some exVars else if f = "r.txt".toList then some exRules else none)
    (fun _ => true) "in.asc".toList "out.var".toList "2000Y1".toList "2001Y1".toList "r.txt".toList =
    .ok ⟨some years, [("T_B_Y".toList, [.num (-3), na]), ("X".toList, [.num 1, na])]⟩ := by decide +kernel

end Imp
end Iode
