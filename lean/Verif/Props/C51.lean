import Verif.Props.C49
import Verif.Lemmas.AscEqs
import Verif.Lemmas.AscScl
import Verif.Lemmas.Flt
import Verif.Lemmas.Names

/-!
# C51  Equations are restored from their text form

See `properties.jsonl`.  Texts are those of Spec/AscEqs.lean; conversions between code pages are those of Props/C49.lean.
-/
namespace Iode
namespace Asc
namespace Equations
open Yy Written Printf Decimals
open Texts (Decoded Coded Fits toUtf8_decoded toOem_coded wrapped_noNul clean_kept fold_find fold_sorted)
open Lec (kept Clean)
open Lec.Written (Gap NameEnd NumEnd NameCh Digit White Digits dec)

/-! ## Loading -/

/-- What may be said of an equation: periods that are written as they are read, strings that are not empty and can be converted. -/
def Accepted (cv : Conv) (i : Item) : Prop :=
  match i with
  | .sample s => PerOk s.start ∧ PerOk s.stop ∧ Sample.ofPeriods s.start s.stop = .ok s
  | .block t => t ≠ []
  | .comment t => ∃ u, u ≠ [] ∧ Decoded cv t u
  | .instruments t => ∃ u, u ≠ [] ∧ Decoded cv t u
  | _ => True

/-- The equation that is meant by a definition.  The comment is converted twice: what is stored is in the code page again. -/
structure Means (cv : Conv) (valid : Yy.Text → Yy.Text → Bool) (d : EDef) (e : Eqn) : Prop where
  endo : e.endo = d.name
  lec : ∃ o u, Wrapped 60 d.formula o ∧ Decoded cv o u ∧ u ≠ [] ∧ e.lec = if valid d.name u then u else []
  method : e.method = ((lastOf Item.method? d.items).getD 0 : Nat)
  sample : e.sample = (lastOf Item.sample? d.items).getD noSmpl
  comment : (lastOf Item.comment? d.items = none ∧ e.comment = []) ∨
    ∃ t u, lastOf Item.comment? d.items = some t ∧ Decoded cv t u ∧ (∀ c ∈ u, c.toNat ≠ 0) ∧ Coded cv u e.comment
  block : e.block = (lastOf Item.block? d.items).getD d.name
  instruments : (lastOf Item.instruments? d.items = none ∧ e.instruments = []) ∨
    ∃ t, lastOf Item.instruments? d.items = some t ∧ Decoded cv t e.instruments
  date : e.date = (lastOf Item.date? d.items).getD 0
  tests : e.tests.length = 20 ∧ ∀ i < 20, e.tests[i]? = some (((lastOf (Item.test? i) d.items).map toFloat).getD (.num 0))

theorem last_mem {α : Type} {f : Item → Option α} {is : List Item} {a : α} (h : lastOf f is = some a) : ∃ i ∈ is, f i = some a :=
  List.mem_filterMap.1 (List.mem_of_getLast? h)

theorem Means.ok {cv : Conv} {valid : Yy.Text → Yy.Text → Bool} {d : EDef} {e : Eqn} (h : Means cv valid d e)
    (hf : ∀ c ∈ d.formula, c.toNat ≠ 0) (hi : ∀ i ∈ d.items, ItemClean i) (ha : ∀ i ∈ d.items, Accepted cv i) :
    DefOk cv d ∧ storedOf cv valid d = e := by
  have ok : ∀ i ∈ d.items, ItemOk cv i := by
    intro i him
    have h1 := hi i him
    have h2 := ha i him
    cases i with
    | sample s => exact h2
    | block t => exact ⟨h2, h1⟩
    | comment t =>
      obtain ⟨u, h3, h4⟩ := h2
      exact ⟨⟨u, toUtf8_decoded h4 h1, h3⟩, h1⟩
    | instruments t =>
      obtain ⟨u, h3, h4⟩ := h2
      exact ⟨⟨u, toUtf8_decoded h4 h1, h3⟩, h1⟩
    | method _ => trivial
    | date _ => trivial
    | test _ _ => trivial
  obtain ⟨o, u, w1, w2, w3, w4⟩ := h.lec
  have hu : toUtf8 cv (wrap 60 d.formula) = some u := by
    rw [wrap_iff.2 w1]
    exact toUtf8_decoded w2 (wrapped_noNul w1 hf)
  obtain ⟨a1, a2, a3, a4, a5, a6⟩ := acc_fields (cv := cv) d.items
  obtain ⟨b1, b2⟩ := acc_tests (cv := cv) d.items
  have hc : toOem cv (accOf cv d.items).comment = some e.comment := by
    rw [a5]
    rcases h.comment with ⟨h1, h2⟩ | ⟨t, v, h1, h2, h3, h4⟩
    · rw [h1, h2]
      rfl
    · obtain ⟨i, him, hit⟩ := last_mem h1
      have : i = .comment t := by
        cases i with
        | comment s => simpa [Item.comment?] using hit
        | _ => cases hit
      subst this
      have hcl : ∀ c ∈ t, c.toNat ≠ 0 := hi _ him
      rw [h1, Option.bind_some, toUtf8_decoded h2 hcl]
      exact toOem_coded h4 h3
  have hin : (accOf cv d.items).instruments = e.instruments := by
    rw [a6]
    rcases h.instruments with ⟨h1, h2⟩ | ⟨t, h1, h2⟩
    · rw [h1, h2]
      rfl
    · obtain ⟨i, him, hit⟩ := last_mem h1
      have : i = .instruments t := by
        cases i with
        | instruments s => simpa [Item.instruments?] using hit
        | _ => cases hit
      subst this
      have hcl : ∀ c ∈ t, c.toNat ≠ 0 := hi _ him
      rw [h1, Option.bind_some, toUtf8_decoded h2 hcl]
      rfl
  refine ⟨⟨hf, ⟨u, hu, w3⟩, ok, ⟨_, hc⟩⟩, ?_⟩
  have hb : (if (accOf cv d.items).block.isEmpty then d.name else (accOf cv d.items).block) = e.block := by
    rw [h.block, a4]
    cases hl : lastOf Item.block? d.items with
    | none => rfl
    | some t =>
      obtain ⟨i, him, hit⟩ := last_mem hl
      have : i = .block t := by
        cases i with
        | block s => simpa [Item.block?] using hit
        | _ => cases hit
      subst this
      have hne : t ≠ [] := ha _ him
      simp [hne]
  have ht : (accOf cv d.items).tests = e.tests := by
    refine List.ext_getElem? fun i => ?_
    by_cases hi : i < 20
    · rw [b2 i hi, h.tests.2 i hi]
    · rw [List.getElem?_eq_none (by omega), List.getElem?_eq_none (by rw [h.tests.1]; omega)]
  have hl : lecOf cv d.formula = u := by rw [lecOf, hu]; rfl
  obtain ⟨e1, e2, e3, e4, e5, e6, e7, e8, e9⟩ := e
  simp only [storedOf, eqnOf, hb, hl, a1, a2, a3, hin, ht, hc, Option.getD_some]
  rw [Eqn.mk.injEq]
  exact ⟨h.endo.symm, w4.symm, h.method.symm, h.sample.symm, rfl, rfl, rfl, h.date.symm, rfl⟩

theorem put_eqs {cv : Conv} {valid : Yy.Text → Yy.Text → Bool} {defs : List EDef} {es : List Eqn}
    (h : List.Forall₂ (fun d e => d.name = e.endo ∧ storedOf cv valid d = e) defs es) (db : SMap Eqn) :
    putEqs cv valid defs db = (es.map fun e => (e.endo, e)).foldl (fun db e => SMap.insert (keyOf true e.1) e.2 db) db := by
  induction h generalizing db with
  | nil => rfl
  | @cons d e ds es h _ ih =>
    rw [putEqs, List.foldl_cons, List.map_cons, List.foldl_cons, h.1, h.2]
    exact ih _

theorem defs_ok {cv : Conv} {valid : Yy.Text → Yy.Text → Bool} {defs : List EDef} {es : List Eqn}
    (hcl : ∀ d ∈ defs, (∀ c ∈ d.formula, c.toNat ≠ 0) ∧ ∀ i ∈ d.items, ItemClean i)
    (ha : ∀ d ∈ defs, ∀ i ∈ d.items, Accepted cv i) (hm : List.Forall₂ (Means cv valid) defs es) :
    (∀ d ∈ defs, DefOk cv d) ∧ List.Forall₂ (fun d e => d.name = e.endo ∧ storedOf cv valid d = e) defs es := by
  induction hm with
  | nil => exact ⟨by simp, .nil⟩
  | @cons d e ds es h _ ih =>
    obtain ⟨h1, h2⟩ := hcl d (by simp)
    obtain ⟨h3, h4⟩ := h.ok h1 h2 (ha d (by simp))
    obtain ⟨h5, h6⟩ := ih (fun d hd => hcl d (by simp [hd])) (fun d hd => ha d (by simp [hd]))
    exact ⟨List.forall_mem_cons.2 ⟨h3, h5⟩, .cons ⟨h.endo.symm, h4⟩ h6⟩

theorem accepted_smpl {cv : Conv} {i : Item} (h : Accepted cv i) : SmplOk i := by
  cases i with
  | sample s => exact ⟨h.1, h.2.1⟩
  | _ => trivial

/-- Every text of equations is read as it is meant: each name stands for its last definition. -/
theorem C51_load {cv : Conv} {valid : Yy.Text → Yy.Text → Bool} {vs : Option Sample} {defs : List EDef} {es : List Eqn} {t : Yy.Text}
    (h : ELaid na ieee defs (t.filter kept)) (h0 : ∀ c ∈ t, c.toNat ≠ 0) (ha : ∀ d ∈ defs, ∀ i ∈ d.items, Accepted cv i)
    (hm : List.Forall₂ (Means cv valid) defs es) :
    ∃ db, loadEqs cv valid vs t = .ok (.good (), db) ∧ SMap.Sorted db ∧
      ∀ k, SMap.find k db = lastDef true (es.map fun e => (e.endo, e)) k := by
  have hc := clean_kept h0
  have hl := elaid_expand h (fun d hd i hi => accepted_smpl (ha d hd i hi)) hc 0
  rw [← Lec.expand_kept] at hl
  obtain ⟨h1, h2⟩ := defs_ok (elaid_clean h hc) ha hm
  rw [loadEqs_laid hl h1, put_eqs h2]
  exact ⟨_, rfl, fold_sorted _ _, fold_find _ _⟩

/-! ## Saving and loading -/

/-- Entries written in lines. -/
def Chunk (is : List Item) (x : Yy.Text) : Prop :=
  ∀ is' s s', Items na ieee is' ('\n' :: s) s' → Items na ieee (is ++ is') ('\n' :: (x ++ s)) s'

theorem chunk_nil : Chunk [] [] := fun _ _ _ h => h

theorem Chunk.append {is js : List Item} {x y : Yy.Text} (h1 : Chunk is x) (h2 : Chunk js y) : Chunk (is ++ js) (x ++ y) := by
  intro is' s s' h
  rw [List.append_assoc, List.append_assoc]
  exact h1 _ _ _ (h2 _ _ _ h)

theorem gap_line : Gap ['\n', '\t'] := .white (by decide) (.white (by decide) .nil)

theorem gap_space : Gap [' '] := .white (by decide) .nil

theorem nameEnd_nl (s : Yy.Text) : NameEnd ('\n' :: s) := by intro c hc; cases hc; decide

theorem nameEnd_space (s : Yy.Text) : NameEnd (' ' :: s) := by intro c hc; cases hc; decide

theorem numEnd_nl (s : Yy.Text) : NumEnd ('\n' :: s) := by intro c hc; cases hc; decide

theorem chunk_method {m : Int} (h0 : 0 ≤ m) (h4 : m ≤ 4) : Chunk [.method m.toNat] (methodLine m) := by
  intro is s s' h
  have hm : m = 0 ∨ m = 1 ∨ m = 2 ∨ m = 3 ∨ m = 4 := by omega
  rcases hm with rfl | rfl | rfl | rfl | rfl
  · exact Items.method (w := "LSQ") (m := 0) gap_line (by decide) (nameEnd_nl _) h
  · exact Items.method (w := "ZELLNER") (m := 1) gap_line (by decide) (nameEnd_nl _) h
  · exact Items.method (w := "INF") (m := 2) gap_line (by decide) (nameEnd_nl _) h
  · exact Items.method (w := "GLS") (m := 3) gap_line (by decide) (nameEnd_nl _) h
  · exact Items.method (w := "MAXLIK") (m := 4) gap_line (by decide) (nameEnd_nl _) h

theorem chunk_block {t b : Yy.Text} (h : Lit t b) : Chunk [.block t] (['\t', 'B', 'L', 'O', 'C', 'K', ' ', '"'] ++ (b ++ ['"', '\n'])) := by
  intro is s s' hi
  have := Items.block gap_line gap_space h hi
  simpa using this

theorem chunk_comment {t b : Yy.Text} (h : Lit t b) :
    Chunk [.comment t] (['\t', 'C', 'O', 'M', 'M', 'E', 'N', 'T', ' ', '"'] ++ (b ++ ['"', '\n'])) := by
  intro is s s' hi
  have := Items.comment gap_line gap_space h hi
  simpa using this

theorem chunk_instruments {t b : Yy.Text} (h : Lit t b) :
    Chunk [.instruments t] (['\t', 'I', 'N', 'S', 'T', 'R', 'U', 'M', 'E', 'N', 'T', 'S', ' ', '"'] ++ (b ++ ['"', '\n'])) := by
  intro is s s' hi
  have := Items.instruments gap_line gap_space h hi
  simpa using this

theorem chunk_sample (smp : Sample) :
    Chunk [.sample smp] (['\t', 'S', 'A', 'M', 'P', 'L', 'E', ' '] ++ (smp.start.toChars ++ (' ' :: (smp.stop.toChars ++ ['\n'])))) := by
  intro is s s' hi
  have := Items.sample (smp := smp) gap_line gap_space (by simp) gap_space (by simp) (numEnd_nl s) hi
  simpa using this

theorem chunk_date {d : Int} (h : |d| < 10 ^ 9) : Chunk [.date d] (['\t', 'D', 'A', 'T', 'E', ' '] ++ (intToChars d ++ ['\n'])) := by
  intro is s s' hi
  have hlen : (natToChars d.natAbs).length ≤ 9 := natToChars_length (by omega) (by rw [abs_lt] at h; omega)
  have hne : natToChars d.natAbs ≠ [] := natToChars_ne_nil _
  by_cases hd : d < 0
  · have := Items.before gap_line gap_space (by simp) Gap.nil (natToChars_digits d.natAbs) hne hlen (numEnd_nl s) hi
    rw [dec_natToChars, show -((d.natAbs : Nat) : Int) = d by omega] at this
    rw [intToChars, if_pos hd]
    simpa using this
  · have := Items.date gap_line gap_space (by simp) (natToChars_digits d.natAbs) hne hlen (numEnd_nl s) hi
    rw [dec_natToChars, show ((d.natAbs : Nat) : Int) = d by omega] at this
    rw [intToChars, if_neg hd]
    simpa using this

/-- The values of tests that can be written and read again. -/
def Writable (v : Dbl) : Prop := isNumber v = false ∨ ∃ q, v = .num q ∧ Double q ∧ |q| ≤ (10 : Rat) ^ (38 : Int)

/-- The tests that are written. -/
def Shown (v : Dbl) : Prop := v ≠ .num 0 ∧ isNumber v = true

instance (v : Dbl) : Decidable (Shown v) := inferInstanceAs (Decidable (_ ∧ _))

/-- What is read of a test that is written. -/
def again (v : Dbl) : Dbl :=
  match v with
  | .num q => ieee (sig 10 8 q)
  | v => v

/-- The entry of a test. -/
def testItem (i : Nat) (v : Dbl) : List Item := if Shown v then [.test i (again v)] else []

theorem chunk_test {w : String} {key : Yy.Text} (hk : w.toList = key) {i : Nat} (hw : (w, i) ∈ testPlaces) {v : Dbl} (hv : Writable v) :
    Chunk (testItem i v) (printTest key v) := by
  rw [testItem, printTest.eq_def]
  by_cases hs : Shown v
  · rw [if_pos hs, if_pos (c := v ≠ .num 0 ∧ isNumber v = true) hs]
    rcases hv with h | ⟨q, rfl, hq, _⟩
    · rw [hs.2] at h; cases h
    · intro is s s' hi
      obtain ⟨t, ht, e⟩ := fmtG_numeral (P := 8) (by omega) q
      have hl := fmtG_length (P := 8) (by omega) (by omega) (double_size hq)
      have hsg := sign_sigP (P := 8) q
      have key2 : Vals na ieee [ieee (sig 10 8 q)] (' ' :: (fmtG 8 q ++ '\n' :: s)) ('\n' :: s) := by
        rw [e] at hl ⊢
        split at hl
        · rename_i hq0
          rw [if_pos hq0] at hsg ⊢
          rw [← hsg]
          have := Vals.neg (missing := na) (rnd := ieee) gap_space Gap.nil ht (by simp at hl; omega) (numEnd_nl s) .nil
          simpa using this
        · rename_i hq0
          rw [if_neg hq0] at hsg ⊢
          rw [← hsg]
          have := Vals.num (missing := na) (rnd := ieee) gap_space ht (by omega) (numEnd_nl s) .nil
          simpa using this
      have := Items.test gap_line hw (nameEnd_space _) key2 hi
      rw [hk] at this
      simpa [again] using this
  · rw [if_neg hs, if_neg (c := v ≠ .num 0 ∧ isNumber v = true) hs]
    exact chunk_nil

/-- The names of the tests in a file. -/
theorem names_places : ∀ k ∈ testNames, ∃ e ∈ testPlaces, e.1.toList = k.1 ∧ e.2 = k.2 := by decide +kernel

theorem chunk_tests {l : List (Yy.Text × Nat)} (hl : ∀ k ∈ l, k ∈ testNames) {ts : List Dbl}
    (hv : ∀ k ∈ l, Writable (ts.getD k.2 (.num 0))) :
    Chunk (l.flatMap fun k => testItem k.2 (ts.getD k.2 (.num 0))) (l.flatMap fun k => printTest k.1 (ts.getD k.2 (.num 0))) := by
  induction l with
  | nil => exact chunk_nil
  | cons k l ih =>
    rw [List.flatMap_cons, List.flatMap_cons]
    obtain ⟨e, h1, h2, h3⟩ := names_places k (hl k (by simp))
    refine Chunk.append ?_ (ih (fun k hk => hl k (by simp [hk])) fun k hk => hv k (by simp [hk]))
    exact chunk_test h2 (by rw [← h3]; exact h1) (hv k (by simp))

/-! ## What is left of an equation -/

/-- The equations that can be written and read again. -/
structure Saved (cv : Conv) (e : Eqn) : Prop where
  lec0 : ∀ c ∈ e.lec, c.toNat ≠ 0
  lec : ∃ o w u, Coded cv e.lec o ∧ Fits .identities o ∧ Wrapped 60 o w ∧ Decoded cv w u ∧ u ≠ []
  method : 0 ≤ e.method ∧ e.method ≤ 4
  block : e.block ≠ [] ∧ Fits .identities e.block
  comment : trim e.comment = [] ∨ ((∀ c ∈ trim e.comment, c.toNat ≠ 0) ∧ ∃ o u c, Coded cv (trim e.comment) o ∧ Carried o ∧ Carets o ∧
    Decoded cv o u ∧ u ≠ [] ∧ (∀ c ∈ u, c.toNat ≠ 0) ∧ Coded cv u c)
  instruments : trim e.instruments = [] ∨ ((∀ c ∈ e.instruments, c.toNat ≠ 0) ∧ ∃ o u, Coded cv e.instruments o ∧
    Fits .identities o ∧ Decoded cv o u ∧ u ≠ [])
  sample : e.sample.nb = 0 ∨ (PerOk e.sample.start ∧ PerOk e.sample.stop ∧ Sample.ofPeriods e.sample.start e.sample.stop = .ok e.sample)
  date : e.sample.nb = 0 ∨ |e.date| < 10 ^ 9
  tests : e.sample.nb = 0 ∨ ∀ p ∈ testPlaces, Writable (e.tests.getD p.2 (.num 0))

/-- What is left of an equation that is saved under the name `k` and loaded: the date and the tests only if there is a sample, the
    tests only if they are among those that are written. -/
structure Restored (cv : Conv) (valid : Yy.Text → Yy.Text → Bool) (k : Yy.Text) (e e' : Eqn) : Prop where
  endo : e'.endo = k
  lec : ∃ o w u, Coded cv e.lec o ∧ Wrapped 60 o w ∧ Decoded cv w u ∧ e'.lec = if valid k u then u else []
  method : e'.method = e.method
  block : e'.block = e.block
  comment : (trim e.comment = [] ∧ e'.comment = []) ∨
    (trim e.comment ≠ [] ∧ ∃ o u, Coded cv (trim e.comment) o ∧ Decoded cv o u ∧ Coded cv u e'.comment)
  instruments : (trim e.instruments = [] ∧ e'.instruments = []) ∨
    (trim e.instruments ≠ [] ∧ ∃ o, Coded cv e.instruments o ∧ Decoded cv o e'.instruments)
  sample : e'.sample = if e.sample.nb = 0 then noSmpl else e.sample
  date : e'.date = if e.sample.nb = 0 then 0 else e.date
  count : e'.tests.length = 20
  tests : ∀ i < 20, ∃ w, e'.tests[i]? = some w ∧
    (if e.sample.nb ≠ 0 ∧ ∃ p ∈ testPlaces, p.2 = i then RestoredT isNumber (e.tests.getD i (.num 0)) w else w = .num 0)

/-- The tests that are read, to the last digit. -/
def Sharp (e e' : Eqn) : Prop :=
  ∀ i < 20, e'.tests[i]? = some (if e.sample.nb ≠ 0 ∧ (∃ p ∈ testPlaces, p.2 = i) ∧ Shown (e.tests.getD i (.num 0)) then
    toFloat (again (e.tests.getD i (.num 0))) else .num 0)

set_option exponentiation.threshold 2000 in
/-- What is read of a test. -/
theorem again_restored {v : Dbl} (h : Writable v) (hs : Shown v) : RestoredT isNumber v (toFloat (again v)) := by
  rcases h with h | ⟨q, rfl, hq, hb⟩
  · rw [hs.2] at h; cases h
  · have hq0 : q ≠ 0 := by
      rintro rfl
      exact hs.1 rfl
    have h1 := sig_upperP (P := 8) (by omega) hb
    have h308 : (10 : Rat) ^ (38 : Int) ≤ (10 : Rat) ^ (308 : Int) := by
      exact_mod_cast (by norm_num : (10 : Nat) ^ 38 ≤ 10 ^ 308)
    have h127 : (10 : Rat) ^ (38 : Int) ≤ (2 : Rat) ^ (127 : Int) := by
      exact_mod_cast (by norm_num : (10 : Nat) ^ 38 ≤ 2 ^ 127)
    have hB : Binary ((2 : Rat) ^ (127 : Int)) := ⟨1, 127, by norm_num, by norm_num, by norm_num⟩
    have hF : BinaryF ((2 : Rat) ^ (127 : Int)) := ⟨1, 127, by norm_num, by norm_num, by norm_num⟩
    obtain ⟨a1, a2⟩ := abs_le.1 (le_trans h1 h127)
    have hd := roundD_nearest (sig 10 8 q)
    have b1 := near_ge' hd.2 (binary_neg hB) a1
    have b2 := near_le' hd.2 hB a2
    have hf := roundF_nearest (roundD (sig 10 8 q))
    have c1 := near_ge' hf.2 (binaryF_neg hF) b1
    have c2 := near_le' hf.2 hF b2
    have hlt : (2 : Rat) ^ (127 : Int) < (2 : Rat) ^ 128 := by
      exact_mod_cast (by norm_num : (2 : Nat) ^ 127 < 2 ^ 128)
    refine .inr ⟨hs.2, q, sig 10 8 q, roundD (sig 10 8 q), roundF (roundD (sig 10 8 q)), rfl, hq0, ?_, nearP (by omega) q, hd, hf⟩
    simp only [again]
    rw [ieee_small (le_trans h1 h308), toFloat, if_neg (by linarith), if_neg (by linarith)]

/-! ## The lines of an equation -/

theorem clean_append {a b : Yy.Text} (ha : Clean a) (hb : Clean b) : Clean (a ++ b) := by
  intro c hc
  rcases List.mem_append.1 hc with h | h
  · exact ha c h
  · exact hb c h

theorem clean_cons {c : Char} {b : Yy.Text} (hc : Clean [c]) (hb : Clean b) : Clean (c :: b) := clean_append hc hb

theorem clean_plain {a : Yy.Text} (h : ∀ c ∈ a, Lec.PlainCh c) : Clean a := fun c hc => ⟨(h c hc).1, (h c hc).2.2⟩

theorem clean_carried {a : Yy.Text} (h : Carried a) : Clean a := fun c hc => ⟨(h c hc).1, (h c hc).2.2⟩

theorem clean_escape {a : Yy.Text} (h : Carried a) : Clean (escape a) := Texts.body_clean (ty := .lists) (.inr (.inl rfl)) h

/-- Lines without characters that are dropped. -/
structure Line (is : List Item) (x : Yy.Text) : Prop where
  chunk : Chunk is x
  clean : Clean x

theorem Line.append {is js : List Item} {x y : Yy.Text} (h1 : Line is x) (h2 : Line js y) : Line (is ++ js) (x ++ y) :=
  ⟨h1.chunk.append h2.chunk, clean_append h1.clean h2.clean⟩

theorem line_nil : Line [] [] := ⟨chunk_nil, by simp [Lec.Clean]⟩

theorem line_method {m : Int} (h0 : 0 ≤ m) (h4 : m ≤ 4) : Line [.method m.toNat] (methodLine m) := by
  refine ⟨chunk_method h0 h4, ?_⟩
  have hm : m = 0 ∨ m = 1 ∨ m = 2 ∨ m = 3 ∨ m = 4 := by omega
  rcases hm with rfl | rfl | rfl | rfl | rfl <;> (simp only [Lec.Clean]; decide)

theorem line_block {t : Yy.Text} (h : Fits .identities t) :
    Line [.block t] (['\t', 'B', 'L', 'O', 'C', 'K', ' ', '"'] ++ (cstr t ++ ['"', '\n'])) := by
  rw [cstr_self fun c hc => (h.carried c hc).1]
  exact ⟨chunk_block (Texts.lit_plain h.carried h.carets (h.quotes rfl)),
    clean_append (by simp only [Lec.Clean]; decide) (clean_append (clean_carried h.carried) (by simp only [Lec.Clean]; decide))⟩

/-- The entry of a comment that is written. -/
theorem line_comment {cv : Conv} {t : Yy.Text} (h : trim t = [] ∨ ((∀ c ∈ trim t, c.toNat ≠ 0) ∧ ∃ o, Coded cv (trim t) o ∧ Carried o ∧
    Carets o)) : ∃ is x, commentLine cv t = some x ∧ Line is x ∧
      ((trim t = [] ∧ is = []) ∨ (trim t ≠ [] ∧ ∃ o, Coded cv (trim t) o ∧ is = [.comment o])) := by
  rw [commentLine]
  by_cases h0 : trim t = []
  · rw [if_pos (by simp [h0])]
    exact ⟨[], [], rfl, line_nil, .inl ⟨h0, rfl⟩⟩
  · rw [if_neg (by simpa using h0)]
    rcases h with h | ⟨h1, o, h2, h3, h4⟩
    · exact absurd h h0
    · rw [toOem_coded h2 h1]
      refine ⟨[.comment o], _, rfl, ⟨chunk_comment (Texts.lit_escape h3 h4), ?_⟩, .inr ⟨h0, o, h2, rfl⟩⟩
      exact clean_append (by simp only [Lec.Clean]; decide) (clean_append (clean_escape h3) (by simp only [Lec.Clean]; decide))

theorem line_instruments {cv : Conv} {t : Yy.Text} (h : trim t = [] ∨ ((∀ c ∈ t, c.toNat ≠ 0) ∧ ∃ o, Coded cv t o ∧
    Fits .identities o)) : ∃ is x, instrLine cv t = some x ∧ Line is x ∧
      ((trim t = [] ∧ is = []) ∨ (trim t ≠ [] ∧ ∃ o, Coded cv t o ∧ is = [.instruments o])) := by
  rw [instrLine]
  by_cases h0 : trim t = []
  · rw [if_pos (by simp [h0])]
    exact ⟨[], [], rfl, line_nil, .inl ⟨h0, rfl⟩⟩
  · rw [if_neg (by simpa using h0)]
    rcases h with h | ⟨h1, o, h2, h3⟩
    · exact absurd h h0
    · rw [toOem_coded h2 h1]
      refine ⟨[.instruments o], _, rfl, ?_, .inr ⟨h0, o, h2, rfl⟩⟩
      beta_reduce
      rw [cstr_self fun c hc => (h3.carried c hc).1]
      exact ⟨chunk_instruments (Texts.lit_plain h3.carried h3.carets (h3.quotes rfl)),
        clean_append (by simp only [Lec.Clean]; decide) (clean_append (clean_carried h3.carried) (by simp only [Lec.Clean]; decide))⟩

/-- The entries of the estimation. -/
def estItems (e : Eqn) : List Item :=
  if e.sample.nb ≠ 0 then
    [.sample e.sample] ++ ([.date e.date] ++ testNames.flatMap fun k => testItem k.2 (e.tests.getD k.2 (.num 0)))
  else []

theorem test_clean {k : Yy.Text} (hk : Clean k) (v : Dbl) : Clean (printTest k v) := by
  rw [printTest.eq_def]
  split
  · refine clean_cons (by simp only [Lec.Clean]; decide) (clean_append hk (clean_cons (by simp only [Lec.Clean]; decide)
      (clean_append ?_ (by simp only [Lec.Clean]; decide))))
    cases v with
    | num q =>
      obtain ⟨t, ht, e⟩ := fmtG_numeral (P := 8) (by omega) q
      simp only
      rw [e]
      split
      · exact clean_cons (by simp only [Lec.Clean]; decide) (clean_plain (numeral_plain ht))
      · exact clean_plain (numeral_plain ht)
    | _ => simp only [Lec.Clean]; decide
  · simp [Lec.Clean]

theorem names_clean : ∀ k ∈ testNames, Clean k.1 := by simp only [Lec.Clean]; decide

theorem clean_flatMap {α : Type} {l : List α} {f : α → Yy.Text} (h : ∀ a ∈ l, Clean (f a)) : Clean (l.flatMap f) := by
  intro c hc
  obtain ⟨a, ha, hc⟩ := List.mem_flatMap.1 hc
  exact h a ha c hc

theorem int_clean (d : Int) : Clean (intToChars d) := by
  have : Clean (natToChars d.natAbs) :=
    clean_plain fun c hc => Lec.nameCh_plain (Lec.digit_nameCh (natToChars_digits d.natAbs c hc))
  rw [intToChars]
  split
  · exact clean_cons (by simp only [Lec.Clean]; decide) this
  · exact this

theorem line_est {cv : Conv} {e : Eqn} (h : Saved cv e) : Line (estItems e) (estLines e) := by
  rw [estItems, estLines]
  by_cases hn : e.sample.nb = 0
  · rw [if_neg (by simpa using hn), if_neg (by simpa using hn)]
    exact line_nil
  · rw [if_pos hn, if_pos hn]
    obtain ⟨p1, p2, _⟩ := h.sample.resolve_left hn
    have hd := h.date.resolve_left hn
    have ht := h.tests.resolve_left hn
    have h1 : Line [.sample e.sample] (['\t', 'S', 'A', 'M', 'P', 'L', 'E', ' '] ++
        (e.sample.start.toChars ++ (' ' :: (e.sample.stop.toChars ++ ['\n'])))) := by
      refine ⟨chunk_sample _, clean_append (by simp only [Lec.Clean]; decide) (clean_append (clean_plain p1.plain)
        (clean_cons (by simp only [Lec.Clean]; decide) (clean_append (clean_plain p2.plain) (by simp only [Lec.Clean]; decide))))⟩
    have h2 : Line [.date e.date] (['\t', 'D', 'A', 'T', 'E', ' '] ++ (intToChars e.date ++ ['\n'])) :=
      ⟨chunk_date hd, clean_append (by simp only [Lec.Clean]; decide) (clean_append (int_clean _) (by simp only [Lec.Clean]; decide))⟩
    have h3 : Line (testNames.flatMap fun k => testItem k.2 (e.tests.getD k.2 (.num 0)))
        (testNames.flatMap fun k => printTest k.1 (e.tests.getD k.2 (.num 0))) := by
      refine ⟨chunk_tests (fun _ h => h) fun k hk => ?_, clean_flatMap fun k hk => test_clean (names_clean k hk) _⟩
      obtain ⟨p, q1, _, q3⟩ := names_places k hk
      rw [← q3]
      exact ht p q1
    have := h1.append (h2.append h3)
    simpa using this

theorem tests_none {α : Type} {f : Item → Option α} (hf : ∀ i v, f (.test i v) = none) (l : List (Yy.Text × Nat)) (g : Nat → Dbl) :
    (l.flatMap fun k => testItem k.2 (g k.2)).filterMap f = [] := by
  rw [List.filterMap_eq_nil_iff]
  intro i hi
  obtain ⟨k, _, hi⟩ := List.mem_flatMap.1 hi
  rw [testItem] at hi
  split at hi
  · rw [List.mem_singleton.1 hi]
    exact hf _ _
  · cases hi

theorem tests_at {l : List (Yy.Text × Nat)} (hnd : (l.map (·.2)).Nodup) (g : Nat → Dbl) (i : Nat) :
    (l.flatMap fun k => testItem k.2 (g k.2)).filterMap (Item.test? i) =
      if i ∈ l.map (·.2) ∧ Shown (g i) then [again (g i)] else [] := by
  induction l with
  | nil => simp
  | cons k l ih =>
    rw [List.map_cons, List.nodup_cons] at hnd
    rw [List.flatMap_cons, List.filterMap_append, ih hnd.2, testItem]
    by_cases hk : k.2 = i
    · subst hk
      by_cases hs : Shown (g k.2)
      · rw [if_pos hs, if_neg (by tauto), if_pos (by simp [hs])]
        simp [Item.test?]
      · rw [if_neg hs, if_neg (by tauto), if_neg (by tauto)]
        rfl
    · have h1 : List.filterMap (Item.test? i) (if Shown (g k.2) then [Item.test k.2 (again (g k.2))] else []) = [] := by
        split <;> simp [Item.test?, hk]
      rw [h1, List.nil_append]
      have h2 : (i ∈ List.map (·.2) (k :: l) ∧ Shown (g i)) ↔ (i ∈ List.map (·.2) l ∧ Shown (g i)) := by
        simp [Ne.symm hk]
      by_cases hc : i ∈ List.map (·.2) l ∧ Shown (g i)
      · rw [if_pos hc, if_pos (h2.2 hc)]
      · rw [if_neg hc, if_neg (fun h => hc (h2.1 h))]

theorem places_mem (i : Nat) : i ∈ testNames.map (·.2) ↔ ∃ p ∈ testPlaces, p.2 = i := by
  have : testNames.map (·.2) = testPlaces.map (·.2) := by decide
  rw [this, List.mem_map]

/-- An equation in a file: its text, its definition, what it becomes. -/
theorem saved_eq {cv : Conv} (valid : Yy.Text → Yy.Text → Bool) (k : Yy.Text) {e : Eqn} (h : Saved cv e) :
    (printEq cv e).1 = true ∧ ∃ o is body e', (printEq cv e).2 = ['{', '\n', '\t', '"'] ++ (o ++ '"' :: ('\n' :: (body ++ ['}', '\n']))) ∧
      Lit o o ∧ Carried o ∧ Line is body ∧ (∀ i ∈ is, Accepted cv i) ∧ Means cv valid ⟨k, o, is⟩ e' ∧ Restored cv valid k e e' ∧ Sharp e e' := by
  obtain ⟨o, w, u, l1, l2, l3, l4, l5⟩ := h.lec
  have hc : trim e.comment = [] ∨ ((∀ c ∈ trim e.comment, c.toNat ≠ 0) ∧ ∃ o, Coded cv (trim e.comment) o ∧ Carried o ∧ Carets o) := by
    rcases h.comment with h | ⟨h1, o, u, c, h2, h3, h4, _⟩
    · exact .inl h
    · exact .inr ⟨h1, o, h2, h3, h4⟩
  have hi : trim e.instruments = [] ∨ ((∀ c ∈ e.instruments, c.toNat ≠ 0) ∧ ∃ o, Coded cv e.instruments o ∧ Fits .identities o) := by
    rcases h.instruments with h | ⟨h1, o, u, h2, h3, _⟩
    · exact .inl h
    · exact .inr ⟨h1, o, h2, h3⟩
  obtain ⟨isC, xC, c1, c2, c3⟩ := line_comment hc
  obtain ⟨isI, xI, i1, i2, i3⟩ := line_instruments hi
  have hbody := (line_method h.method.1 h.method.2).append ((line_block h.block.2).append (c2.append (i2.append (line_est h))))
  have hprint : printEq cv e = (true, ['{', '\n', '\t', '"'] ++ (o ++ '"' :: ('\n' :: ((methodLine e.method ++
      ((['\t', 'B', 'L', 'O', 'C', 'K', ' ', '"'] ++ (cstr e.block ++ ['"', '\n'])) ++ (xC ++ (xI ++ estLines e)))) ++ ['}', '\n'])))) := by
    rw [printEq, toOem_coded l1 h.lec0]
    simp only
    rw [c1]
    simp only
    rw [i1, cstr_self fun c hc => (l2.carried c hc).1]
    simp
  rw [hprint]
  -- what the entries say
  have nC : ∀ {α : Type} {f : Item → Option α}, (∀ t, f (.comment t) = none) → isC.filterMap f = [] := by
    intro α f hf
    rcases c3 with ⟨_, rfl⟩ | ⟨_, o, _, rfl⟩
    · rfl
    · simp [hf]
  have nI : ∀ {α : Type} {f : Item → Option α}, (∀ t, f (.instruments t) = none) → isI.filterMap f = [] := by
    intro α f hf
    rcases i3 with ⟨_, rfl⟩ | ⟨_, o, _, rfl⟩
    · rfl
    · simp [hf]
  have nE : ∀ {α : Type} {f : Item → Option α}, (∀ s, f (.sample s) = none) → (∀ d, f (.date d) = none) → (∀ i v, f (.test i v) = none) →
      (estItems e).filterMap f = [] := by
    intro α f h1 h2 h3
    rw [estItems]
    split
    · rw [List.filterMap_append, List.filterMap_append, tests_none h3 testNames fun i => e.tests.getD i (.num 0)]
      simp [h1, h2]
    · rfl
  have hsC : ∀ t, lastOf Item.comment? ([.method e.method.toNat] ++ ([.block e.block] ++ (isC ++ (isI ++ estItems e)))) = t ↔
      lastOf Item.comment? isC = t := by
    intro t
    rw [lastOf, lastOf]
    simp only [List.filterMap_append, nI (f := Item.comment?) fun _ => rfl,
      nE (f := Item.comment?) (fun _ => rfl) (fun _ => rfl) fun _ _ => rfl]
    simp [Item.comment?]
  have hsI : ∀ t, lastOf Item.instruments? ([.method e.method.toNat] ++ ([.block e.block] ++ (isC ++ (isI ++ estItems e)))) = t ↔
      lastOf Item.instruments? isI = t := by
    intro t
    rw [lastOf, lastOf]
    simp only [List.filterMap_append, nC (f := Item.instruments?) fun _ => rfl,
      nE (f := Item.instruments?) (fun _ => rfl) (fun _ => rfl) fun _ _ => rfl]
    simp [Item.instruments?]
  have hM : lastOf Item.method? ([.method e.method.toNat] ++ ([.block e.block] ++ (isC ++ (isI ++ estItems e)))) = some e.method.toNat := by
    rw [lastOf]
    simp only [List.filterMap_append, nC (f := Item.method?) fun _ => rfl, nI (f := Item.method?) fun _ => rfl,
      nE (f := Item.method?) (fun _ => rfl) (fun _ => rfl) fun _ _ => rfl]
    rfl
  have hB : lastOf Item.block? ([.method e.method.toNat] ++ ([.block e.block] ++ (isC ++ (isI ++ estItems e)))) = some e.block := by
    rw [lastOf]
    simp only [List.filterMap_append, nC (f := Item.block?) fun _ => rfl, nI (f := Item.block?) fun _ => rfl,
      nE (f := Item.block?) (fun _ => rfl) (fun _ => rfl) fun _ _ => rfl]
    rfl
  have hS : lastOf Item.sample? ([.method e.method.toNat] ++ ([.block e.block] ++ (isC ++ (isI ++ estItems e)))) =
      if e.sample.nb = 0 then none else some e.sample := by
    rw [lastOf]
    simp only [List.filterMap_append, nC (f := Item.sample?) fun _ => rfl, nI (f := Item.sample?) fun _ => rfl]
    rw [estItems]
    by_cases hn : e.sample.nb = 0
    · rw [if_neg (by simpa using hn), if_pos hn]
      rfl
    · rw [if_pos hn, if_neg hn]
      simp only [List.filterMap_append, tests_none (f := Item.sample?) (fun _ _ => rfl) testNames fun i => e.tests.getD i (.num 0)]
      rfl
  have hD : lastOf Item.date? ([.method e.method.toNat] ++ ([.block e.block] ++ (isC ++ (isI ++ estItems e)))) =
      if e.sample.nb = 0 then none else some e.date := by
    rw [lastOf]
    simp only [List.filterMap_append, nC (f := Item.date?) fun _ => rfl, nI (f := Item.date?) fun _ => rfl]
    rw [estItems]
    by_cases hn : e.sample.nb = 0
    · rw [if_neg (by simpa using hn), if_pos hn]
      rfl
    · rw [if_pos hn, if_neg hn]
      simp only [List.filterMap_append, tests_none (f := Item.date?) (fun _ _ => rfl) testNames fun i => e.tests.getD i (.num 0)]
      rfl
  have hT : ∀ i, lastOf (Item.test? i) ([.method e.method.toNat] ++ ([.block e.block] ++ (isC ++ (isI ++ estItems e)))) =
      if e.sample.nb ≠ 0 ∧ (∃ p ∈ testPlaces, p.2 = i) ∧ Shown (e.tests.getD i (.num 0)) then some (again (e.tests.getD i (.num 0)))
      else none := by
    intro i
    rw [lastOf]
    simp only [List.filterMap_append, nC (f := Item.test? i) fun _ => rfl, nI (f := Item.test? i) fun _ => rfl]
    rw [estItems]
    by_cases hn : e.sample.nb = 0
    · rw [if_neg (by simpa using hn), if_neg (by simp [hn])]
      rfl
    · rw [if_pos hn]
      simp only [List.filterMap_append, tests_at (l := testNames) (by decide) (fun i => e.tests.getD i (.num 0)) i]
      by_cases hs : i ∈ testNames.map (·.2) ∧ Shown (e.tests.getD i (.num 0))
      · rw [if_pos hs, if_pos ⟨hn, (places_mem i).1 hs.1, hs.2⟩]
        simp [Item.test?]
      · rw [if_neg hs, if_neg (fun h => hs ⟨(places_mem i).2 h.2.1, h.2.2⟩)]
        simp [Item.test?]
  -- the comment and the instruments that are read
  obtain ⟨eC, hC⟩ : ∃ c, ((trim e.comment = [] ∧ isC = [] ∧ c = []) ∨ (trim e.comment ≠ [] ∧ ∃ o u, isC = [.comment o] ∧
      Coded cv (trim e.comment) o ∧ Decoded cv o u ∧ u ≠ [] ∧ (∀ c ∈ u, c.toNat ≠ 0) ∧ Coded cv u c)) := by
    rcases c3 with ⟨a1, a2⟩ | ⟨a1, o', a2, a3⟩
    · exact ⟨[], .inl ⟨a1, a2, rfl⟩⟩
    · rcases h.comment with hx | ⟨_, o'', u', c, h2, _, _, h5, h6, h7, h8⟩
      · exact absurd hx a1
      · cases Texts.coded_unique a2 h2
        exact ⟨c, .inr ⟨a1, o', u', a3, h2, h5, h6, h7, h8⟩⟩
  obtain ⟨eI, hI⟩ : ∃ c, ((trim e.instruments = [] ∧ isI = [] ∧ c = []) ∨ (trim e.instruments ≠ [] ∧ c ≠ [] ∧ ∃ o, isI = [.instruments o] ∧
      Coded cv e.instruments o ∧ Decoded cv o c)) := by
    rcases i3 with ⟨a1, a2⟩ | ⟨a1, o', a2, a3⟩
    · exact ⟨[], .inl ⟨a1, a2, rfl⟩⟩
    · rcases h.instruments with hx | ⟨_, o'', u', h2, _, h5, h6⟩
      · exact absurd hx a1
      · cases Texts.coded_unique a2 h2
        exact ⟨u', .inr ⟨a1, h6, o', a3, h2, h5⟩⟩
  have hmt : ((e.method.toNat : Nat) : Int) = e.method := by have := h.method.1; omega
  let ts : List Dbl := (List.range 20).map fun i => ((lastOf (Item.test? i)
    ([.method e.method.toNat] ++ ([.block e.block] ++ (isC ++ (isI ++ estItems e))))).map toFloat).getD (.num 0)
  have hts : ∀ i < 20, ts[i]? = some (((lastOf (Item.test? i)
    ([.method e.method.toNat] ++ ([.block e.block] ++ (isC ++ (isI ++ estItems e))))).map toFloat).getD (.num 0)) := by
    intro i hi
    simp only [ts]
    rw [List.getElem?_map, List.getElem?_range hi]
    rfl
  refine ⟨rfl, o, _, _, ⟨k, if valid k u then u else [], e.method, if e.sample.nb = 0 then noSmpl else e.sample, eC, e.block, eI,
    if e.sample.nb = 0 then 0 else e.date, ts⟩, rfl, Texts.lit_plain l2.carried l2.carets (l2.quotes rfl), l2.carried, hbody, ?_, ?_, ?_, ?_⟩
  · intro i him
    simp only [List.mem_append, List.mem_singleton] at him
    rcases him with rfl | rfl | him | him | him
    · trivial
    · exact h.block.1
    · rcases hC with ⟨_, rfl, _⟩ | ⟨_, o', u', rfl, _, h3, h4, _⟩
      · cases him
      · rw [List.mem_singleton.1 him]
        exact ⟨u', h4, h3⟩
    · rcases hI with ⟨_, rfl, _⟩ | ⟨_, h1, o', rfl, _, h3⟩
      · cases him
      · rw [List.mem_singleton.1 him]
        exact ⟨eI, h1, h3⟩
    · rw [estItems] at him
      split at him
      · rename_i hn
        simp only [List.mem_append, List.mem_singleton] at him
        rcases him with rfl | rfl | him
        · exact h.sample.resolve_left hn
        · trivial
        · obtain ⟨x, _, him⟩ := List.mem_flatMap.1 him
          rw [testItem] at him
          split at him
          · rw [List.mem_singleton.1 him]
            trivial
          · cases him
      · cases him
  · refine ⟨rfl, ⟨w, u, l3, l4, l5, rfl⟩, ?_, ?_, ?_, ?_, ?_, ?_, ?_, hts⟩
    · simp only
      rw [hM]
      exact hmt.symm
    · simp only
      rw [hS]
      split <;> rfl
    · simp only
      rcases hC with ⟨_, h2, h3⟩ | ⟨_, o', u', h2, h3, h4, _, h6, h7⟩
      · exact .inl ⟨(hsC _).2 (by rw [h2]; rfl), h3⟩
      · exact .inr ⟨o', u', (hsC _).2 (by rw [h2]; rfl), h4, h6, h7⟩
    · simp only
      rw [hB]
      rfl
    · simp only
      rcases hI with ⟨_, h2, h3⟩ | ⟨_, _, o', h2, h3, h4⟩
      · exact .inl ⟨(hsI _).2 (by rw [h2]; rfl), h3⟩
      · exact .inr ⟨o', (hsI _).2 (by rw [h2]; rfl), h4⟩
    · simp only
      rw [hD]
      split <;> rfl
    · simp [ts]
  · refine ⟨rfl, ⟨o, w, u, l1, l3, l4, rfl⟩, rfl, rfl, ?_, ?_, rfl, rfl, by simp [ts], ?_⟩
    · rcases hC with ⟨h1, _, h3⟩ | ⟨h1, o', u', _, h3, h4, _, _, h7⟩
      · exact .inl ⟨h1, h3⟩
      · exact .inr ⟨h1, o', u', h3, h4, h7⟩
    · rcases hI with ⟨h1, _, h3⟩ | ⟨h1, _, o', _, h3, h4⟩
      · exact .inl ⟨h1, h3⟩
      · exact .inr ⟨h1, o', h3, h4⟩
    · intro i hi
      refine ⟨_, hts i hi, ?_⟩
      rw [hT i]
      by_cases hp : e.sample.nb ≠ 0 ∧ ∃ p ∈ testPlaces, p.2 = i
      · rw [if_pos hp]
        have hw : Writable (e.tests.getD i (.num 0)) := by
          obtain ⟨hn, p, hp1, hp2⟩ := hp
          rw [← hp2]
          exact h.tests.resolve_left hn p hp1
        by_cases hs : Shown (e.tests.getD i (.num 0))
        · rw [if_pos ⟨hp.1, hp.2, hs⟩]
          exact again_restored hw hs
        · rw [if_neg fun h => hs h.2.2]
          refine .inl ⟨?_, rfl⟩
          by_cases h0 : e.tests.getD i (.num 0) = .num 0
          · exact .inr h0
          · left
            have := fun h => hs ⟨h0, h⟩
            simpa using this
      · rw [if_neg hp, if_neg fun h => hp ⟨h.1, h.2.1⟩]
        rfl
  · intro i hi
    rw [hts i hi, hT i]
    split <;> rfl

theorem elaid_white {c : Char} (hc : White c) {defs : List EDef} {s : Yy.Text} (h : ELaid na ieee defs s) : ELaid na ieee defs (c :: s) := by
  cases h with
  | nil hg => exact .nil (.white hc hg)
  | short hg hw hg' hl hr => exact .short (.white hc hg) hw hg' hl hr
  | full hg hw h1 h2 hl hi h3 hr => exact .full (.white hc hg) hw h1 h2 hl hi h3 hr

/-- A file of equations. -/
theorem saved_defs {cv : Conv} (valid : Yy.Text → Yy.Text → Bool) {db : SMap Eqn} (hn : ∀ e ∈ db, ObjName e.1)
    (h : ∀ e ∈ db, Saved cv e.2) :
    (saveEqs cv db).1 = true ∧ Clean (saveEqs cv db).2 ∧ ∃ defs es, ELaid na ieee defs (saveEqs cv db).2 ∧
      (∀ d ∈ defs, ∀ i ∈ d.items, Accepted cv i) ∧ List.Forall₂ (Means cv valid) defs es ∧
      List.Forall₂ (fun e e' => Restored cv valid e.1 e.2 e' ∧ Sharp e.2 e') db es := by
  induction db with
  | nil => exact ⟨rfl, by simp [saveEqs, Lec.Clean], [], [], .nil .nil, by simp, .nil, .nil⟩
  | cons e db ih =>
    obtain ⟨j1, j2, defs, es, j3, j4, j5, j6⟩ := ih (fun e he => hn e (by simp [he])) (fun e he => h e (by simp [he]))
    obtain ⟨k1, o, is, body, e', k2, k3, k4, k5, k6, k7, k8⟩ := saved_eq valid e.1 (h e (by simp))
    simp only [saveEqs] at j1 j2 j3 ⊢
    have hx : (e :: db).flatMap (fun e => e.1 ++ ' ' :: (printEq cv e.2).2) =
        [] ++ (e.1 ++ ([' '] ++ '{' :: (['\n', '\t'] ++ '"' :: (o ++ '"' :: ('\n' :: (body ++ '}' :: ('\n' ::
          db.flatMap fun e => e.1 ++ ' ' :: (printEq cv e.2).2))))))) := by
      rw [List.flatMap_cons, k2]
      simp
    refine ⟨by rw [List.all_cons, k1, j1]; rfl, ?_, ⟨e.1, o, is⟩ :: defs, e' :: es, ?_, ?_, .cons k7 j5, .cons k8 j6⟩
    · rw [hx]
      refine clean_append (by simp [Lec.Clean]) (clean_append (clean_plain fun c hc => Lec.nameCh_plain ((hn e (by simp)).all c hc))
        (clean_append (by simp only [Lec.Clean]; decide) (clean_cons (by simp only [Lec.Clean]; decide)
        (clean_append (by simp only [Lec.Clean]; decide) (clean_cons (by simp only [Lec.Clean]; decide)
        (clean_append (clean_carried k4) (clean_cons (by simp only [Lec.Clean]; decide) (clean_cons (by simp only [Lec.Clean]; decide)
        (clean_append k5.clean (clean_cons (by simp only [Lec.Clean]; decide)
        (clean_cons (by simp only [Lec.Clean]; decide) j2)))))))))))
    · rw [hx]
      have hi : Items na ieee is ('\n' :: (body ++ '}' :: ('\n' :: db.flatMap fun e => e.1 ++ ' ' :: (printEq cv e.2).2)))
          (['\n'] ++ '}' :: ('\n' :: db.flatMap fun e => e.1 ++ ' ' :: (printEq cv e.2).2)) := by
        have := k5.chunk [] ('}' :: ('\n' :: db.flatMap fun e => e.1 ++ ' ' :: (printEq cv e.2).2)) _ .nil
        rw [List.append_nil] at this
        exact this
      exact .full .nil (hn e (by simp)) gap_space gap_line k3 hi (.white (by decide) .nil) (elaid_white (by decide) j3)
    · intro d hd
      rcases List.mem_cons.1 hd with rfl | hd
      · exact k6
      · exact j4 d hd

theorem fold_eqs {l : SMap Eqn} (h : ∀ e ∈ l, keyOf true e.1 = e.1) (hs : SMap.Sorted l) :
    l.foldl (fun db e => SMap.insert (keyOf true e.1) e.2 db) [] = l := by
  have : ∀ (m acc : SMap Eqn), (∀ e ∈ m, e ∈ l) →
      m.foldl (fun db e => SMap.insert (keyOf true e.1) e.2 db) acc = m.foldl (fun a e => SMap.insert e.1 e.2 a) acc := by
    intro m
    induction m with
    | nil => intro acc _; rfl
    | cons e m ih =>
      intro acc hm
      rw [List.foldl_cons, List.foldl_cons, h e (hm e (by simp))]
      exact ih _ fun e he => hm e (by simp [he])
  rw [this l [] fun _ h => h, BinFile.foldl_insert_sorted l [] hs (by intro k hk; cases hk)]
  rfl

theorem load_save {cv : Conv} {valid : Yy.Text → Yy.Text → Bool} {vs : Option Sample} {db : SMap Eqn} (hs : SMap.Sorted db)
    (hn : ∀ e ∈ db, ObjName e.1 ∧ e.1.map toUpperC = e.1) (h : ∀ e ∈ db, Saved cv e.2) :
    (saveEqs cv db).1 = true ∧ ∃ db', loadEqs cv valid vs (saveEqs cv db).2 = .ok (.good (), db') ∧
      List.Forall₂ (fun e e' => e'.1 = e.1 ∧ Restored cv valid e.1 e.2 e'.2 ∧ Sharp e.2 e'.2) db db' := by
  obtain ⟨h1, h2, defs, es, h3, h4, h5, h6⟩ := saved_defs valid (fun e he => (hn e he).1) h
  obtain ⟨k1, k2⟩ := defs_ok (elaid_clean h3 h2) h4 h5
  have hkeys : (es.map fun e => (e.endo, e)).map (·.1) = db.map (·.1) := by
    clear h3 h4 h5 k1 k2 h2 h1 h hn hs
    induction h6 with
    | nil => rfl
    | cons a _ ih => simpa using ⟨a.1.endo, by simpa using ih⟩
  refine ⟨h1, es.map fun e => (e.endo, e), ?_, ?_⟩
  · rw [loadEqs_laid (elaid_expand h3 (fun d hd i hi => accepted_smpl (h4 d hd i hi)) h2 0) k1, put_eqs k2, fold_eqs]
    · intro e he
      have : e.1 ∈ db.map (·.1) := by rw [← hkeys]; exact List.mem_map.2 ⟨e, he, rfl⟩
      obtain ⟨x, hx, hx2⟩ := List.mem_map.1 this
      rw [← hx2]
      exact (hn x hx).2
    · exact Texts.sorted_keys hkeys.symm hs
  · rw [List.forall₂_map_right_iff]
    exact h6.imp fun e e' a => ⟨a.1.endo, a⟩

/-- All names come back, each with what is left of its equation. -/
theorem C51_roundtrip {cv : Conv} {valid : Yy.Text → Yy.Text → Bool} {vs : Option Sample} {db : SMap Eqn} (hs : SMap.Sorted db)
    (hn : ∀ e ∈ db, ObjName e.1 ∧ e.1.map toUpperC = e.1) (h : ∀ e ∈ db, Saved cv e.2) :
    (saveEqs cv db).1 = true ∧ ∃ db', loadEqs cv valid vs (saveEqs cv db).2 = .ok (.good (), db') ∧
      List.Forall₂ (fun e e' => e'.1 = e.1 ∧ Restored cv valid e.1 e.2 e'.2) db db' := by
  obtain ⟨h1, db', h2, h3⟩ := load_save (valid := valid) (vs := vs) hs hn h
  exact ⟨h1, db', h2, h3.imp fun e e' a => ⟨a.1, a.2.1⟩⟩

/-! ## Equations that are not changed -/

/-- The `float` next to a decimal number of at most 8 digits. -/
def Decimal8 (v : Dbl) : Prop :=
  ∃ s, v = toFloat (ieee s) ∧ Short 10 8 s ∧ (10 : Rat) ^ (-27 : Int) ≤ |s| ∧ |s| ≤ (10 : Rat) ^ (25 : Int)

set_option exponentiation.threshold 2000 in
theorem float_fd {x : Rat} (h1 : (10 : Rat) ^ (-28 : Int) ≤ |x|) (h2 : |x| ≤ (10 : Rat) ^ (26 : Int)) :
    toFloat (ieee x) = .num (fd x) ∧ BinaryF (fd x) := by
  have h308 : (10 : Rat) ^ (26 : Int) ≤ (10 : Rat) ^ (308 : Int) := by
    exact_mod_cast (by norm_num : (10 : Nat) ^ 26 ≤ 10 ^ 308)
  have h1022 : (2 : Rat) ^ (-1022 : Int) ≤ (10 : Rat) ^ (-28 : Int) := by
    rw [zpow_neg, zpow_neg]
    refine inv_anti₀ (by positivity) ?_
    exact_mod_cast (by norm_num : (10 : Nat) ^ 28 ≤ 2 ^ 1022)
  have h100 : (2 : Rat) ^ (-100 : Int) ≤ (10 : Rat) ^ (-28 : Int) := by norm_num
  have h90 : (10 : Rat) ^ (26 : Int) ≤ (2 : Rat) ^ (90 : Int) := by norm_num
  have hB : Short 2 53 ((2 : Rat) ^ (-100 : Int)) := ⟨1, -100, by norm_num, by norm_num⟩
  have hB' : Short 2 53 ((2 : Rat) ^ (90 : Int)) := ⟨1, 90, by norm_num, by norm_num⟩
  have hF : BinaryF ((2 : Rat) ^ (90 : Int)) := ⟨1, 90, by norm_num, by norm_num, by norm_num⟩
  have hne := sig_nearest (b := 2) (P := 53) (by omega) (by omega) x
  have hrd : roundD x = sig 2 53 x := roundD_eq (le_trans h1022 h1)
  have hlow : (2 : Rat) ^ (-100 : Int) ≤ |sig 2 53 x| := by
    rcases le_abs.1 (le_trans h100 h1) with h | h
    · exact le_trans (near_ge' hne.2 hB h) (le_abs_self _)
    · have := near_le' hne.2 (short_neg hB) (by linarith : x ≤ -(2 : Rat) ^ (-100 : Int))
      exact le_trans (by linarith) (neg_le_abs _)
  obtain ⟨a1, a2⟩ := abs_le.1 (le_trans h2 h90)
  have b1 := near_ge' hne.2 (short_neg hB') a1
  have b2 := near_le' hne.2 hB' a2
  have h0 : sig 2 53 x ≠ 0 := by
    intro h
    rw [h, abs_zero] at hlow
    have : (0 : Rat) < (2 : Rat) ^ (-100 : Int) := zpow_pos (by norm_num) _
    linarith
  have hil := ilog_spec (b := 2) (by omega) (abs_pos.2 h0)
  have hlog : -149 ≤ ilog 2 |sig 2 53 x| - 23 := by
    by_contra hc
    have : ((2 : Nat) : Rat) ^ (ilog 2 |sig 2 53 x| + 1) ≤ ((2 : Nat) : Rat) ^ (-100 : Int) := zpow_le_zpow_right₀ (by norm_num) (by omega)
    have h4 := hil.2
    push_cast at this h4
    linarith
  have hrf : roundF (sig 2 53 x) = fd x := roundF_normal h0 hlog
  have hf := roundF_nearest (sig 2 53 x)
  have c1 := near_ge' hf.2 (binaryF_neg hF) b1
  have c2 := near_le' hf.2 hF b2
  have hlt : (2 : Rat) ^ (90 : Int) < (2 : Rat) ^ 128 := by norm_num
  rw [ieee_small (le_trans h2 h308), toFloat, hrd, if_neg (by linarith), if_neg (by linarith), hrf]
  exact ⟨rfl, by rw [← hrf]; exact hf.1⟩

/-- The numbers next to decimal numbers are about as large. -/
theorem fd_bounds {s : Rat} (h1 : (10 : Rat) ^ (-27 : Int) ≤ |s|) (h2 : |s| ≤ (10 : Rat) ^ (25 : Int)) :
    (10 : Rat) ^ (-28 : Int) ≤ |fd s| ∧ |fd s| ≤ (10 : Rat) ^ (26 : Int) := by
  have k1 : (10 : Rat) ^ (-28 : Int) ≤ fd ((10 : Rat) ^ (-27 : Int)) := by decide +kernel
  have k2 : fd ((10 : Rat) ^ (25 : Int)) ≤ (10 : Rat) ^ (26 : Int) := by decide +kernel
  have key : ∀ x : Rat, 0 ≤ x → (10 : Rat) ^ (-27 : Int) ≤ x → x ≤ (10 : Rat) ^ (25 : Int) →
      (10 : Rat) ^ (-28 : Int) ≤ |fd x| ∧ |fd x| ≤ (10 : Rat) ^ (26 : Int) := by
    intro x _ hx1 hx2
    have m1 := le_trans k1 (fd_mono hx1)
    have m2 := le_trans (fd_mono hx2) k2
    have : (0 : Rat) < (10 : Rat) ^ (-28 : Int) := zpow_pos (by norm_num) _
    rw [abs_of_pos (by linarith)]
    exact ⟨m1, m2⟩
  rcases le_total 0 s with h | h
  · rw [abs_of_nonneg h] at h1 h2
    exact key s h h1 h2
  · rw [abs_of_nonpos h] at h1 h2
    have := key (-s) (by linarith) h1 h2
    rwa [fd_neg, abs_neg] at this

theorem widen {s : Rat} (h1 : (10 : Rat) ^ (-27 : Int) ≤ |s|) (h2 : |s| ≤ (10 : Rat) ^ (25 : Int)) :
    (10 : Rat) ^ (-28 : Int) ≤ |s| ∧ |s| ≤ (10 : Rat) ^ (26 : Int) :=
  ⟨le_trans (by norm_num) h1, le_trans h2 (by norm_num)⟩

set_option exponentiation.threshold 2000 in
theorem number_small {q : Rat} (h : |q| ≤ (10 : Rat) ^ (26 : Int)) : isNumber (.num q) = true := by
  have hB : Binary (-(2 : Rat) ^ (100 : Int)) := ⟨-1, 100, by norm_num, by norm_num, by norm_num⟩
  have := near_le' (roundD_nearest (-(10 ^ 37))).2 hB (by norm_num)
  obtain ⟨h1, _⟩ := abs_le.1 h
  simp only [isNumber, decide_eq_true_eq]
  refine le_trans this (le_trans ?_ h1)
  norm_num

set_option exponentiation.threshold 2000 in
theorem Decimal8.facts {v : Dbl} (h : Decimal8 v) : Shown v ∧ Writable v ∧ toFloat (again v) = v := by
  obtain ⟨s, rfl, hs, h1, h2⟩ := h
  obtain ⟨w1, w2⟩ := widen h1 h2
  obtain ⟨b1, b2⟩ := fd_bounds h1 h2
  obtain ⟨e1, e2⟩ := float_fd w1 w2
  rw [e1]
  have hpos : (0 : Rat) < (10 : Rat) ^ (-28 : Int) := zpow_pos (by norm_num) _
  have h0 : fd s ≠ 0 := by
    intro h
    rw [h, abs_zero] at b1
    linarith
  have hn := number_small b2
  refine ⟨⟨by simpa using h0, hn⟩, .inr ⟨fd s, rfl, ⟨?_, lt_of_le_of_lt b2 ?_⟩, le_trans b2 (by norm_num)⟩, ?_⟩
  · obtain ⟨m, e, m1, m2, m3⟩ := e2
    exact ⟨m, e, lt_trans m1 (by norm_num), by omega, m3⟩
  · exact_mod_cast (by norm_num : (10 : Nat) ^ 26 < 2 ^ 1024)
  · simp only [again]
    rw [(float_fd (sig_lowerP (by omega) b1) (sig_upperP (by omega) b2)).1, fd_again hs b1 b2]

/-- The equations that come back. -/
structure Exact (cv : Conv) (valid : Yy.Text → Yy.Text → Bool) (k : Yy.Text) (e : Eqn) : Prop where
  endo : e.endo = k
  lec0 : ∀ c ∈ e.lec, c.toNat ≠ 0
  lec : e.lec ≠ [] ∧ valid k e.lec = true ∧ ∃ o, Coded cv e.lec o ∧ Decoded cv o e.lec ∧ Fits .identities o ∧ Wrapped 60 o o
  method : 0 ≤ e.method ∧ e.method ≤ 4
  block : e.block ≠ [] ∧ Fits .identities e.block
  comment : e.comment = [] ∨ (trim e.comment = e.comment ∧ (∀ c ∈ e.comment, c.toNat ≠ 0) ∧ ∃ o u, Coded cv e.comment o ∧ Carried o ∧
    Carets o ∧ Decoded cv o u ∧ u ≠ [] ∧ (∀ c ∈ u, c.toNat ≠ 0) ∧ Coded cv u e.comment)
  instruments : e.instruments = [] ∨ (trim e.instruments ≠ [] ∧ (∀ c ∈ e.instruments, c.toNat ≠ 0) ∧ ∃ o, Coded cv e.instruments o ∧
    Fits .identities o ∧ Decoded cv o e.instruments)
  est : (e.sample = noSmpl ∧ e.date = 0) ∨ (e.sample.nb ≠ 0 ∧ PerOk e.sample.start ∧ PerOk e.sample.stop ∧
    Sample.ofPeriods e.sample.start e.sample.stop = .ok e.sample ∧ |e.date| < 10 ^ 9)
  count : e.tests.length = 20
  tests : ∀ i < 20, e.tests[i]? = some (.num 0) ∨
    (e.sample.nb ≠ 0 ∧ (∃ p ∈ testPlaces, p.2 = i) ∧ ∃ v, e.tests[i]? = some v ∧ Decimal8 v)

theorem places_lt : ∀ p ∈ testPlaces, p.2 < 20 := by decide

theorem zero_writable : Writable (.num 0) :=
  .inr ⟨0, rfl, ⟨⟨0, 0, by norm_num, by norm_num, by norm_num⟩, by norm_num⟩, by norm_num⟩

theorem Exact.saved {cv : Conv} {valid : Yy.Text → Yy.Text → Bool} {k : Yy.Text} {e : Eqn} (h : Exact cv valid k e) : Saved cv e := by
  obtain ⟨l1, _, o, l2, l3, l4, l5⟩ := h.lec
  refine ⟨h.lec0, ⟨o, o, e.lec, l2, l4, l5, l3, l1⟩, h.method, h.block, ?_, ?_, ?_, ?_, ?_⟩
  · rcases h.comment with h | ⟨h1, h2, o, u, h3⟩
    · exact .inl (by rw [h]; rfl)
    · rw [h1]
      exact .inr ⟨h2, o, u, e.comment, h3⟩
  · rcases h.instruments with h | ⟨_, h2, o, h3, h4, h5⟩
    · exact .inl (by rw [h]; rfl)
    · by_cases h0 : e.instruments = []
      · exact .inl (by rw [h0]; rfl)
      · exact .inr ⟨h2, o, e.instruments, h3, h4, h5, h0⟩
  · rcases h.est with ⟨h, _⟩ | ⟨_, h1, h2, h3, _⟩
    · exact .inl (by rw [h]; rfl)
    · exact .inr ⟨h1, h2, h3⟩
  · rcases h.est with ⟨h, _⟩ | ⟨_, _, _, _, h⟩
    · exact .inl (by rw [h]; rfl)
    · exact .inr h
  · right
    intro p hp
    rcases h.tests p.2 (places_lt p hp) with h | ⟨_, _, v, h1, h2⟩
    · rw [List.getD_eq_getElem?_getD, h]
      exact zero_writable
    · rw [List.getD_eq_getElem?_getD, h1]
      exact h2.facts.2.1

theorem Exact.back {cv : Conv} {valid : Yy.Text → Yy.Text → Bool} {k : Yy.Text} {e e' : Eqn} (h : Exact cv valid k e)
    (hr : Restored cv valid k e e') (hs : Sharp e e') : e' = e := by
  have t : e'.tests = e.tests := by
    refine List.ext_getElem? fun i => ?_
    by_cases hi : i < 20
    · rw [hs i hi]
      rcases h.tests i hi with h | ⟨h1, h2, v, h3, h4⟩
      · rw [h, if_neg]
        rintro ⟨_, _, hsh⟩
        rw [List.getD_eq_getElem?_getD, h] at hsh
        exact hsh.1 rfl
      · have : e.tests.getD i (.num 0) = v := by rw [List.getD_eq_getElem?_getD, h3]; rfl
        rw [this, if_pos ⟨h1, h2, h4.facts.1⟩, h3, h4.facts.2.2]
    · rw [List.getElem?_eq_none (by rw [hr.count]; omega), List.getElem?_eq_none (by rw [h.count]; omega)]
  have s : e'.sample = e.sample := by
    rw [hr.sample]
    rcases h.est with ⟨h, _⟩ | ⟨h, _⟩
    · rw [h]; rfl
    · rw [if_neg h]
  have d : e'.date = e.date := by
    rw [hr.date]
    rcases h.est with ⟨h1, h2⟩ | ⟨h, _⟩
    · rw [h1, h2]; rfl
    · rw [if_neg h]
  have l : e'.lec = e.lec := by
    obtain ⟨_, l2, o, l3, l4, _, l6⟩ := h.lec
    obtain ⟨o', w, u, k1, k2, k3, k4⟩ := hr.lec
    cases Texts.coded_unique l3 k1
    cases Texts.wrapped_unique l6 k2
    cases Texts.decoded_unique l4 k3
    rw [k4, if_pos l2]
  have c : e'.comment = e.comment := by
    rcases hr.comment with ⟨h1, h2⟩ | ⟨h1, o, u, h2, h3, h4⟩
    · rcases h.comment with h | ⟨h3, _⟩
      · rw [h2, h]
      · rw [h2, ← h3, h1]
    · rcases h.comment with h | ⟨h5, _, o', u', h6, _, _, h7, _, _, h8⟩
      · rw [h] at h1
        exact absurd rfl h1
      · rw [h5] at h2
        cases Texts.coded_unique h2 h6
        cases Texts.decoded_unique h3 h7
        exact Texts.coded_unique h4 h8
  have i : e'.instruments = e.instruments := by
    rcases hr.instruments with ⟨h1, h2⟩ | ⟨h1, o, h2, h3⟩
    · rcases h.instruments with h | ⟨h3, _⟩
      · rw [h2, h]
      · exact absurd h1 h3
    · rcases h.instruments with h | ⟨_, _, o', h6, _, h7⟩
      · rw [h] at h1
        exact absurd rfl h1
      · cases Texts.coded_unique h2 h6
        exact Texts.decoded_unique h3 h7
  obtain ⟨e1, e2, e3, e4, e5, e6, e7, e8, e9⟩ := e
  obtain ⟨f1, f2, f3, f4, f5, f6, f7, f8, f9⟩ := e'
  simp only at t s d l c i
  rw [Eqn.mk.injEq]
  exact ⟨hr.endo.trans h.endo.symm, l, hr.method, s, c, hr.block, i, d, t⟩

theorem exact_back {cv : Conv} {valid : Yy.Text → Yy.Text → Bool} {vs : Option Sample} {db : SMap Eqn} (hs : SMap.Sorted db)
    (hn : ∀ e ∈ db, ObjName e.1 ∧ e.1.map toUpperC = e.1) (h : ∀ e ∈ db, Exact cv valid e.1 e.2) :
    (saveEqs cv db).1 = true ∧ loadEqs cv valid vs (saveEqs cv db).2 = .ok (.good (), db) := by
  obtain ⟨h1, db', h2, h3⟩ := load_save (valid := valid) (vs := vs) hs hn fun e he => (h e he).saved
  refine ⟨h1, ?_⟩
  rw [h2]
  have : db' = db := by
    clear h2 h1 hn hs
    induction h3 with
    | nil => rfl
    | @cons e e' l l' a _ ih =>
      rw [ih fun e he => h e (by simp [he])]
      exact congrArg (· :: l) (Prod.ext a.1 ((h e (by simp)).back a.2.1 a.2.2))
  rw [this]

/-- Equations come back as they were when their formulas are short (or have several lines) and compile, their comments are the same
    in the code page, and their tests have at most 8 digits. -/
theorem C51_exact {cv : Conv} {valid : Yy.Text → Yy.Text → Bool} {vs : Option Sample} {db : SMap Eqn} (hs : SMap.Sorted db)
    (hn : ∀ e ∈ db, ObjName e.1 ∧ e.1.map toUpperC = e.1) (h : ∀ e ∈ db, Exact cv valid e.1 e.2) :
    (saveEqs cv db).1 = true ∧ loadEqs cv valid vs (saveEqs cv db).2 = .ok (.good (), db) := exact_back hs hn h

/-! ## Saving again -/

/-- The equations whose remains come back: tests neither too large nor too small, comments and instruments that are not changed by
    the conversions, formulas that still compile when they are cut into lines. -/
structure Steady (cv : Conv) (valid : Yy.Text → Yy.Text → Bool) (k : Yy.Text) (e : Eqn) : Prop where
  saved : Saved cv e
  compiles : ∀ o w u, Coded cv e.lec o → Wrapped 60 o w → Decoded cv w u → valid k u = true
  comment : trim e.comment = [] ∨ (Coded cv (trim e.comment) (trim e.comment) ∧ Decoded cv (trim e.comment) (trim e.comment))
  instruments : trim e.instruments = [] ∨ ∃ o, Coded cv e.instruments o ∧ Decoded cv o e.instruments
  tests : ∀ p ∈ testPlaces, ∀ q, e.tests.getD p.2 (.num 0) = .num q → isNumber (.num q) = true →
    q = 0 ∨ ((10 : Rat) ^ (-27 : Int) ≤ |q| ∧ |q| ≤ (10 : Rat) ^ (25 : Int))

theorem Steady.exact {cv : Conv} (hf : Texts.Faithful cv) {valid : Yy.Text → Yy.Text → Bool} {k : Yy.Text} {e e' : Eqn}
    (h : Steady cv valid k e) (hr : Restored cv valid k e e') (hs : Sharp e e') : Exact cv valid k e' := by
  have hsv := h.saved
  have lec : (∀ c ∈ e'.lec, c.toNat ≠ 0) ∧ e'.lec ≠ [] ∧ valid k e'.lec = true ∧
      ∃ o, Coded cv e'.lec o ∧ Decoded cv o e'.lec ∧ Fits .identities o ∧ Wrapped 60 o o := by
    obtain ⟨o, w, u, a1, a2, a3, a4, a5⟩ := hsv.lec
    obtain ⟨o', w', u', k1, k2, k3, k4⟩ := hr.lec
    cases Texts.coded_unique a1 k1
    cases Texts.wrapped_unique a3 k2
    cases Texts.decoded_unique a4 k3
    have hv := h.compiles _ _ _ a1 a3 a4
    rw [if_pos hv] at k4
    have hfw := Texts.fits_wrapped a2 a3
    obtain ⟨v, b1, b2, b3⟩ := hf.both fun c hc => (hfw.carried c hc).1
    cases Texts.decoded_unique a4 b2
    rw [k4]
    exact ⟨b1, a5, hv, w, b3, b2, hfw, Texts.wrapped_again a3⟩
  refine ⟨hr.endo, lec.1, lec.2, ?_, ?_, ?_, ?_, ?_, hr.count, ?_⟩
  · rw [hr.method]; exact hsv.method
  · rw [hr.block]; exact hsv.block
  · rcases hr.comment with ⟨_, h2⟩ | ⟨h1, o, u, h2, h3, h4⟩
    · exact .inl h2
    · rcases h.comment with h5 | ⟨h5, h6⟩
      · exact absurd h5 h1
      · cases Texts.coded_unique h2 h5
        cases Texts.decoded_unique h3 h6
        rw [Texts.coded_unique h4 h5]
        rcases hsv.comment with h7 | ⟨h7, o, u, c, c1, c2, c3, c4, c5, c6, c7⟩
        · exact absurd h7 h1
        · cases Texts.coded_unique h2 c1
          cases Texts.decoded_unique h6 c4
          right
          rw [trim_idem]
          exact ⟨rfl, h7, _, _, h2, c2, c3, h6, c5, c6, h5⟩
  · rcases hr.instruments with ⟨_, h2⟩ | ⟨h1, o, h2, h3⟩
    · exact .inl h2
    · rcases h.instruments with h5 | ⟨o', h5, h6⟩
      · exact absurd h5 h1
      · cases Texts.coded_unique h2 h5
        have := Texts.decoded_unique h3 h6
        rw [this]
        rcases hsv.instruments with h7 | ⟨h7, o, u, c1, c2, _⟩
        · exact absurd h7 h1
        · cases Texts.coded_unique h2 c1
          exact .inr ⟨h1, h7, _, h2, c2, h6⟩
  · rw [hr.sample, hr.date]
    by_cases hn : e.sample.nb = 0
    · rw [if_pos hn, if_pos hn]
      exact .inl ⟨rfl, rfl⟩
    · rw [if_neg hn, if_neg hn]
      obtain ⟨p1, p2, p3⟩ := hsv.sample.resolve_left hn
      exact .inr ⟨hn, p1, p2, p3, hsv.date.resolve_left hn⟩
  · intro i hi
    rw [hs i hi]
    by_cases hc : e.sample.nb ≠ 0 ∧ (∃ p ∈ testPlaces, p.2 = i) ∧ Shown (e.tests.getD i (.num 0))
    · rw [if_pos hc]
      obtain ⟨hn, ⟨p, hp, rfl⟩, hsh⟩ := hc
      have hw := hsv.tests.resolve_left hn p hp
      rcases hw with hw | ⟨q, hq, _, _⟩
      · rw [hsh.2] at hw; cases hw
      · have hb := h.tests p hp q hq (by rw [← hq]; exact hsh.2)
        rcases hb with rfl | ⟨hb1, hb2⟩
        · exact absurd hq hsh.1
        · right
          refine ⟨by rw [hr.sample, if_neg hn]; exact hn, ⟨p, hp, rfl⟩, _, rfl, sig 10 8 q, ?_, (nearP (by omega) q).1,
            sig_lowerP (by omega) hb1, sig_upperP (by omega) hb2⟩
          rw [hq]
          rfl
    · rw [if_neg hc]
      exact .inl rfl

/-- What was loaded from a saved file comes back as it was when it is saved and loaded again. -/
theorem C51_stable {cv : Conv} (hf : Texts.Faithful cv) {valid : Yy.Text → Yy.Text → Bool} {vs : Option Sample} {db : SMap Eqn}
    (hs : SMap.Sorted db) (hn : ∀ e ∈ db, ObjName e.1 ∧ e.1.map toUpperC = e.1) (h : ∀ e ∈ db, Steady cv valid e.1 e.2) :
    ∃ db', loadEqs cv valid vs (saveEqs cv db).2 = .ok (.good (), db') ∧
      loadEqs cv valid vs (saveEqs cv db').2 = .ok (.good (), db') := by
  obtain ⟨h1, db', h2, h3⟩ := load_save (valid := valid) (vs := vs) hs hn fun e he => (h e he).saved
  clear h1
  refine ⟨db', h2, (exact_back ?_ ?_ ?_).2⟩
  · refine Texts.sorted_keys (l := db) ?_ hs
    clear h2 hn hs h
    induction h3 with
    | nil => rfl
    | cons a _ ih => simp [a.1, ih]
  · intro e' he'
    obtain ⟨e, he, a⟩ := Texts.forall₂_mem h3 e' he'
    rw [a.1]
    exact hn e he
  · intro e' he'
    obtain ⟨e, he, a⟩ := Texts.forall₂_mem h3 e' he'
    rw [a.1]
    exact (h e he).exact hf a.2.1 a.2.2

/-! ## Loading comes to an end -/

theorem readLong_ends {tbl : Keys Nat} {n : Nat} {neg : Bool} {st : St} (ho : st.Ok) (hn : st.size < n) :
    Ends st.size (readLong tbl n neg st) := by
  induction n generalizing st neg with
  | zero => omega
  | succ n ih =>
    rw [readLong]
    cases hl : lxs tbl st with
    | err => exact absurd hl (lxs_ne_err ho)
    | ub => exact Ends.ub
    | ok p =>
      obtain ⟨l, s1⟩ := p
      obtain ⟨a1, a2, a3, a4⟩ := lxs_size ho hl
      have hu := unread_size a1 a2 a3 a4
      have hmin : ∀ b, l ≠ .raw .eof → Ends st.size (readLong tbl n b s1) := by
        intro b hne
        rcases a3 with ⟨h, _⟩ | ⟨_, h⟩
        · exact absurd h hne
        · exact (ih a1 (by omega)).mono (by omega)
      simp only [Res.bind]
      cases l with
      | key k => exact Ends.ok hu
      | raw r =>
        cases r with
        | long d => exact Ends.ok ⟨a1, a4⟩
        | special c =>
          simp only
          split
          · exact hmin _ (by simp)
          · split
            · exact hmin _ (by simp)
            · exact Ends.ok hu
        | _ => exact Ends.ok hu

theorem readStr_ends {st : St} (ho : st.Ok) : Ends st.size (readStr st) := by
  rw [readStr]
  cases hl : lxs eqKeys st with
  | err => exact absurd hl (lxs_ne_err ho)
  | ub => exact Ends.ub
  | ok p =>
    obtain ⟨l, s1⟩ := p
    obtain ⟨a1, a2, a3, a4⟩ := lxs_size ho hl
    simp only [Res.bind]
    split
    · exact Ends.ok ⟨a1, a4⟩
    · exact Ends.ub

theorem Ends.next {α β : Type} {n : Nat} {r : Res (α × St)} {f : α × St → Res (β × St)} (h : Ends n r)
    (hf : ∀ a st, st.Ok → st.size ≤ n → Ends n (f (a, st))) : Ends n (r.bind f) := by
  cases r with
  | err => exact absurd rfl h.1
  | ub => exact Ends.ub
  | ok p =>
    obtain ⟨a, st⟩ := p
    obtain ⟨h1, h2⟩ := h.2 a st rfl
    exact hf a st h1 h2

theorem readOem_ends {cv : Conv} {st : St} (ho : st.Ok) : Ends st.size (readOem cv st) := by
  rw [readOem]
  refine Ends.next (readStr_ends ho) fun a s h1 h2 => ?_
  dsimp only
  split <;> exact Ends.ok ⟨h1, h2⟩

theorem eqItem_ends {cv : Conv} {k : Nat} {st : St} (ho : st.Ok) (a : Acc) : Ends st.size (eqItem cv k st a) := by
  unfold eqItem
  split
  · refine Ends.next (readLong_ends ho (by have := size_le st; omega)) fun a s h1 h2 => Ends.ok ⟨h1, h2⟩
  split
  · cases hr : readSmpl eqKeys st with
    | err => exact Ends.ok ⟨ho, le_refl _⟩
    | ub => exact Ends.ub
    | ok p =>
      obtain ⟨o, s⟩ := p
      cases o <;> exact Ends.ok (readSmpl_size ho hr)
  split
  · exact Ends.next (readStr_ends ho) fun a s h1 h2 => Ends.ok ⟨h1, h2⟩
  split
  · exact Ends.next (readOem_ends ho) fun a s h1 h2 => Ends.ok ⟨h1, h2⟩
  split
  · exact Ends.next (readOem_ends ho) fun a s h1 h2 => Ends.ok ⟨h1, h2⟩
  split
  · exact Ends.ok ⟨ho, le_refl _⟩
  split
  · exact Ends.next (real_ends ho) fun a s h1 h2 => Ends.ok ⟨h1, h2⟩
  · exact Ends.ok ⟨ho, le_refl _⟩

theorem eqItems_ends {cv : Conv} {n : Nat} {st : St} (ho : st.Ok) (hn : st.size < n) (a : Acc) :
    Ends st.size (eqItems cv n st a) := by
  induction n generalizing st a with
  | zero => omega
  | succ n ih =>
    rw [eqItems]
    cases hl : lxs eqKeys st with
    | err => exact absurd hl (lxs_ne_err ho)
    | ub => exact Ends.ub
    | ok p =>
      obtain ⟨l, s1⟩ := p
      obtain ⟨a1, a2, a3, a4⟩ := lxs_size ho hl
      have hu := unread_size a1 a2 a3 a4
      have hs : l ≠ .raw .eof → s1.size < st.size := by
        intro he
        rcases a3 with ⟨h, _⟩ | ⟨_, h⟩
        · exact absurd h he
        · exact h
      simp only [Res.bind]
      split
      · exact Ends.ok hu
      · exact Ends.ok hu
      · rename_i h1 _
        have := hs (by simpa using h1)
        exact (ih a1 (by omega) a).mono (by omega)
      · have := hs (by simp)
        split
        · exact Ends.ok ⟨a1, a4⟩
        · refine Ends.mono (Ends.next (eqItem_ends a1 a) fun x s h1 h2 => ?_) a4
          dsimp only
          split
          · exact (ih h1 (by omega) _).mono h2
          · exact Ends.ok ⟨h1, h2⟩
          · exact Ends.ok ⟨h1, h2⟩

theorem makeEq_ne_err {vs : Option Sample} (cv : Conv) (valid : Yy.Text → Yy.Text → Bool) (w lec : Yy.Text) (a : Acc) :
    makeEq cv valid vs w lec a ≠ .err := by
  unfold makeEq
  split
  · simp
  · simp
  · split <;> simp

theorem readEq_ends {cv : Conv} {valid : Yy.Text → Yy.Text → Bool} {vs : Option Sample} {w : Yy.Text} {st : St} (ho : st.Ok) :
    Ends st.size (readEq cv valid vs w st) := by
  have hmk : ∀ {n lec a} {s : St}, s.Ok → s.size ≤ n →
      Ends n ((makeEq cv valid vs w lec a).bind fun e => .ok (e, s)) := by
    intro n lec a s h1 h2
    cases hm : makeEq cv valid vs w lec a with
    | err => exact absurd hm (makeEq_ne_err cv valid w lec a)
    | ub => exact Ends.ub
    | ok e => exact Ends.ok ⟨h1, h2⟩
  rw [readEq]
  cases hl : lxs eqKeys st with
  | err => exact absurd hl (lxs_ne_err ho)
  | ub => exact Ends.ub
  | ok p =>
    obtain ⟨l, s1⟩ := p
    obtain ⟨a1, a2, a3, a4⟩ := lxs_size ho hl
    have hu := unread_size a1 a2 a3 a4
    simp only [Res.bind]
    split
    · refine Ends.next ((readStr_ends a1).mono a4) fun t s h1 h2 => ?_
      dsimp only
      split
      · exact Ends.ok ⟨h1, h2⟩
      · split
        · exact Ends.ok ⟨h1, h2⟩
        · refine Ends.next ((eqItems_ends h1 (by have := size_le s; omega) acc0).mono h2) fun b s2 k1 k2 => ?_
          dsimp only
          split
          · exact hmk k1 k2
          · exact Ends.ok ⟨k1, k2⟩
          · exact Ends.ok ⟨k1, k2⟩
    · refine Ends.next ((readStr_ends hu.1).mono hu.2) fun t s h1 h2 => ?_
      dsimp only
      split
      · exact Ends.ok ⟨h1, h2⟩
      · split
        · exact Ends.ok ⟨h1, h2⟩
        · rename_i u _ _
          have := hmk (lec := u) (a := acc0) h1 h2
          simpa only [Res.bind] using this

theorem eqLoop_ends {cv : Conv} {valid : Yy.Text → Yy.Text → Bool} {vs : Option Sample} {n : Nat} {st : St} (ho : st.Ok)
    (hn : st.size < n) (db : SMap Eqn) : eqLoop cv valid vs n st db ≠ .err := by
  induction n generalizing st db with
  | zero => omega
  | succ n ih =>
    rw [eqLoop]
    cases hl : rd st with
    | err => exact absurd hl (rd_ne_err st)
    | ub => simp [Res.bind]
    | ok p =>
      obtain ⟨l, s1⟩ := p
      obtain ⟨a1, a2, a3, a4⟩ := rd_size ho hl
      have hs : l ≠ .eof → s1.size < st.size := by
        intro he
        rcases a3 with ⟨h, _⟩ | ⟨_, h⟩
        · exact absurd h he
        · exact h
      simp only [Res.bind]
      split
      · simp
      · rename_i w
        have := hs (by simp)
        have he := readEq_ends (cv := cv) (valid := valid) (vs := vs) (w := w.take 20) a1
        cases hr : readEq cv valid vs (w.take 20) s1 with
        | err => exact absurd hr he.1
        | ub => simp
        | ok q =>
          obtain ⟨x, s2⟩ := q
          obtain ⟨c1, c4⟩ := he.2 x s2 hr
          dsimp only
          split
          · simp
          · simp
          · split
            · exact ih c1 (by omega) _
            · simp
      · rename_i h1 _
        have := hs h1
        exact ih a1 (by omega) _

/-- Whatever the file is, loading comes to an end (`.err` is the result of a loop that is not at its end when all the characters
    are used). -/
theorem C51_ends (cv : Conv) (valid : Yy.Text → Yy.Text → Bool) (vs : Option Sample) (t : Yy.Text) : loadEqs cv valid vs t ≠ .err := by
  have ho : St.Ok ⟨.err, false, expand 0 t⟩ := by intro h; cases h
  have hs : St.size ⟨.err, false, expand 0 t⟩ < (expand 0 t).length + 2 := by simp [St.size]
  exact eqLoop_ends ho hs []

/-! ## Examples -/

open Texts (same same_faithful coded_same decoded_same objName)

def years : Sample := ⟨⟨2000, 1, 'Y'⟩, ⟨2001, 1, 'Y'⟩, 2⟩

theorem years_ok : PerOk years.start ∧ PerOk years.stop ∧ Sample.ofPeriods years.start years.stop = .ok years :=
  ⟨⟨⟨1, by decide, by decide, by decide⟩, by simp [years, IsPeriodicity], by decide, by decide⟩,
   ⟨⟨1, by decide, by decide, by decide⟩, by simp [years, IsPeriodicity], by decide, by decide⟩, by decide +kernel⟩

/-- Tests: a coefficient of determination, a statistic of Fisher. -/
def tests1 (r f : Dbl) : List Dbl :=
  [.num 0, .num 0, .num 0, .num 0, .num 0, .num 0, f, r, .num 0, .num 0, .num 0, .num 0, .num 0, .num 0, .num 0, .num 0, .num 0, .num 0,
   .num 0, .num 0]

/-- An equation that was estimated. -/
def eqA : Eqn := ⟨['A'], "A := c1 + c2 * B".toList, 1, years, "see \"x\" \\".toList, "A;B".toList, "C;D".toList, 20260101,
  tests1 (toFloat (ieee (82 / 100))) (toFloat (ieee (-1234567 / 100)))⟩

/-- One that was not, with a formula of two lines. -/
def eqB : Eqn := ⟨['B', '1'], "dln B1\n:= 3".toList, 0, noSmpl, [], "B1".toList, [], 0, List.replicate 20 (.num 0)⟩

def two : SMap Eqn := [(['A'], eqA), (['B', '1'], eqB)]

theorem two_sorted : SMap.Sorted two := ⟨by decide +kernel, (by intro k hk; cases hk), trivial⟩

theorem two_names : ∀ e ∈ two, ObjName e.1 ∧ e.1.map toUpperC = e.1 := by
  intro e he
  simp only [two, List.mem_cons, List.not_mem_nil, or_false] at he
  rcases he with rfl | rfl <;> exact ⟨objName (by decide +kernel), by decide +kernel⟩

theorem decimal8_of {v : Dbl} {s : Rat} (m e : Int) (hv : v = toFloat (ieee s)) (h : |m| < 10 ^ 8)
    (hq : s = m * (10 : Rat) ^ e) (h0 : (1 : Rat) / 1000000 ≤ |s|) (h1 : |s| ≤ 1000000) : Decimal8 v :=
  ⟨s, hv, ⟨m, e, by exact_mod_cast h, hq⟩, le_trans (by norm_num) h0, le_trans h1 (by norm_num)⟩

theorem eqA_exact {valid : Yy.Text → Yy.Text → Bool} (hv : valid ['A'] eqA.lec = true) : Exact same valid ['A'] eqA := by
  refine ⟨rfl, by decide +kernel, ⟨by decide +kernel, hv, eqA.lec, coded_same, decoded_same, ?_, ?_⟩, by decide, ⟨by decide +kernel, ?_⟩,
    .inr ⟨by decide +kernel, by decide +kernel, eqA.comment, eqA.comment, coded_same, by decide +kernel, by decide +kernel, decoded_same,
      by decide +kernel, by decide +kernel, coded_same⟩,
    .inr ⟨by decide +kernel, by decide +kernel, eqA.instruments, coded_same, ?_, decoded_same⟩, .inr ⟨by decide, years_ok.1, years_ok.2.1,
      years_ok.2.2, by decide⟩, rfl, ?_⟩
  · exact ⟨by decide +kernel, by decide +kernel, fun _ => by decide +kernel⟩
  · exact Texts.C49_short (by decide +kernel) (by decide +kernel)
  · exact ⟨by decide +kernel, by decide +kernel, fun _ => by decide +kernel⟩
  · exact ⟨by decide +kernel, by decide +kernel, fun _ => by decide +kernel⟩
  · intro i hi
    by_cases h7 : i = 7
    · subst h7
      exact .inr ⟨by decide, by decide, _, rfl, decimal8_of 82 (-2) rfl (by norm_num) (by norm_num) (by norm_num [abs_of_pos])
        (by norm_num [abs_of_pos])⟩
    by_cases h6 : i = 6
    · subst h6
      exact .inr ⟨by decide, by decide, _, rfl, decimal8_of (-1234567) (-2) rfl (by norm_num) (by norm_num) (by norm_num [abs_of_neg])
        (by norm_num [abs_of_neg])⟩
    have : ∀ i < 20, i ≠ 7 → i ≠ 6 → eqA.tests[i]? = some (.num 0) := by decide +kernel
    exact .inl (this i hi h7 h6)

theorem eqB_exact {valid : Yy.Text → Yy.Text → Bool} (hv : valid ['B', '1'] eqB.lec = true) : Exact same valid ['B', '1'] eqB := by
  refine ⟨rfl, by decide +kernel, ⟨by decide +kernel, hv, eqB.lec, coded_same, decoded_same, ?_, ?_⟩, by decide, ⟨by decide +kernel, ?_⟩,
    .inl rfl, .inl rfl, .inl ⟨rfl, rfl⟩, rfl, ?_⟩
  · exact ⟨by decide +kernel, by decide +kernel, fun _ => by decide +kernel⟩
  · exact wrap_iff.1 (by decide +kernel)
  · exact ⟨by decide +kernel, by decide +kernel, fun _ => by decide +kernel⟩
  · intro i hi
    have : ∀ i < 20, eqB.tests[i]? = some (.num 0) := by decide +kernel
    exact .inl (this i hi)

/-- `C51_exact`: for every compiler that accepts the two formulas. -/
example (valid : Yy.Text → Yy.Text → Bool) (vs : Option Sample) (h1 : valid ['A'] eqA.lec = true) (h2 : valid ['B', '1'] eqB.lec = true) :
    loadEqs same valid vs (saveEqs same two).2 = .ok (.good (), two) := by
  refine (C51_exact two_sorted two_names ?_).2
  intro e he
  simp only [two, List.mem_cons, List.not_mem_nil, or_false] at he
  rcases he with rfl | rfl
  · exact eqA_exact h1
  · exact eqB_exact h2

example : (saveEqs same two).2 = ("A {\n\t\"A := c1 + c2 * B\"\n\tZELLNER\n\tBLOCK \"A;B\"\n\tCOMMENT \"see \\\"x\\\" \\\\\"\n" ++
    "\tINSTRUMENTS \"C;D\"\n\tSAMPLE 2000Y1 2001Y1\n\tDATE 20260101\n\tFSTAT -12345.67\n\tR2 0.81999999\n}\n" ++
    "B1 {\n\t\"dln B1\n:= 3\"\n\tLSQ\n\tBLOCK \"B1\"\n}\n").toList := by decide +kernel

/-- A formula of 90 characters, a comment between blanks, a test that is a third. -/
def eqL : Eqn := ⟨['L'], Texts.many, 4, years, "  note ".toList, "K".toList, " ".toList, 5, tests1 (.num (11184811 / 2 ^ 25)) .inf⟩

/-- The same without the infinite test. -/
def eqM : Eqn := { eqL with tests := tests1 (.num (11184811 / 2 ^ 25)) na }

theorem eqM_saved : Saved same eqM := by
  refine ⟨by decide +kernel, ⟨eqM.lec, _, _, coded_same, ?_, Texts.many_wrapped, decoded_same, by decide +kernel⟩, by decide,
    ⟨by decide +kernel, ?_⟩, .inr ⟨by decide +kernel, "note".toList, "note".toList, "note".toList, ?_, by decide +kernel, by decide +kernel,
      decoded_same, by decide, by decide +kernel, coded_same⟩, .inl (by decide +kernel), .inr years_ok, .inr (by decide), .inr ?_⟩
  · exact ⟨by decide +kernel, by decide +kernel, fun _ => by decide +kernel⟩
  · exact ⟨by decide +kernel, by decide +kernel, fun _ => by decide +kernel⟩
  · rw [show trim eqM.comment = "note".toList by decide +kernel]
    exact coded_same
  · intro p hp
    have third : Writable (.num (11184811 / 2 ^ 25)) := by
      refine .inr ⟨_, rfl, ⟨⟨11184811, -25, by norm_num, by norm_num, by norm_num⟩, ?_⟩, by norm_num [abs_of_pos]⟩
      exact lt_of_lt_of_le (b := 1) (by norm_num [abs_of_pos]) (one_le_pow₀ (by norm_num))
    have hna : Writable na := .inl na_number
    simp only [testPlaces, List.mem_cons, List.not_mem_nil, or_false] at hp
    rcases hp with rfl | rfl | rfl | rfl | rfl | rfl | rfl | rfl | rfl <;> first | exact third | exact hna | exact zero_writable

theorem eqM_steady : Steady same (fun _ _ => true) ['L'] eqM := by
  refine ⟨eqM_saved, fun _ _ _ _ _ _ => rfl, .inr ⟨coded_same, decoded_same⟩, .inl (by decide +kernel), ?_⟩
  intro p hp q hq hn
  simp only [testPlaces, List.mem_cons, List.not_mem_nil, or_false] at hp
  rcases hp with rfl | rfl | rfl | rfl | rfl | rfl | rfl | rfl | rfl
  case inr.inr.inr.inr.inl =>
    rw [show eqM.tests.getD 6 (.num 0) = na from rfl] at hq
    rw [← hq, na_number] at hn
    cases hn
  case inr.inr.inr.inr.inr.inl =>
    rw [show eqM.tests.getD 7 (.num 0) = .num (11184811 / 2 ^ 25) from rfl] at hq
    cases hq
    right
    norm_num [abs_of_pos]
  all_goals
    injection hq with hq
    exact .inl hq.symm

/-- `C51_roundtrip`, `C51_stable`. -/
example : ∃ db', loadEqs same (fun _ _ => true) none (saveEqs same [(['L'], eqM)]).2 = .ok (.good (), db') ∧
    loadEqs same (fun _ _ => true) none (saveEqs same db').2 = .ok (.good (), db') := by
  refine C51_stable same_faithful ⟨(by intro k hk; cases hk), trivial⟩ ?_ ?_
  · intro e he
    rw [List.mem_singleton.1 he]
    exact ⟨objName (by decide +kernel), by decide +kernel⟩
  · intro e he
    rw [List.mem_singleton.1 he]
    exact eqM_steady

/-- `C51_load`: `a "B" A { "C" /* x */ INF DATE -7 R2 0.5 }`: the second definition of `A` counts, it does not compile. -/
example : ∃ db, loadEqs same (fun _ l => l == ['B']) none "a \"B\" A { \"C\" /* x */ INF DATE -7 R2 0.5 }".toList = .ok (.good (), db) ∧
    SMap.find ['A'] db = some ⟨['A'], [], 2, noSmpl, [], ['A'], [], -7, tests1 (.num (1 / 2)) (.num 0)⟩ ∧ SMap.find ['B'] db = none := by
  have hb : ObjName ['a'] := objName (by decide +kernel)
  have hA : ObjName ['A'] := objName (by decide +kernel)
  have hg : Gap [' '] := .white (by decide) .nil
  have hne : ∀ (x : Yy.Text), NumEnd (' ' :: x) ∧ NameEnd (' ' :: x) := by
    intro x
    constructor <;> (intro c hc; cases hc; decide)
  have n5 : Numeral ['0', '.', '5'] (5 / 10) := by
    refine .inr ?_
    have := Lec.Written.Decimal.point (i := ['0']) (f := ['5']) (x := []) (e := 0) (by simp only [Digits]; decide)
      (by simp only [Digits]; decide) (by decide) .none
    rw [show Lec.Written.number ['0'] ['5'] 0 = 5 / 10 by decide +kernel] at this
    simpa using this
  have hl : ELaid na ieee [⟨['a'], ['B'], []⟩, ⟨['A'], ['C'], [.method 2, .date (-(dec ['7'] : Nat)), .test 7 (ieee (5 / 10))]⟩]
      ("a \"B\" A { \"C\" /* x */ INF DATE -7 R2 0.5 }".toList.filter kept) := by
    have e : "a \"B\" A { \"C\" /* x */ INF DATE -7 R2 0.5 }".toList.filter kept =
        [] ++ (['a'] ++ ([' '] ++ '"' :: (['B'] ++ '"' :: ([' '] ++ (['A'] ++ ([' '] ++ '{' :: ([' '] ++ '"' :: (['C'] ++ '"' ::
          ((' ' :: '/' :: '*' :: ([' ', 'x', ' '] ++ '*' :: '/' :: [' '])) ++ ("INF".toList ++ ([' '] ++ ("DATE".toList ++ ([' '] ++ '-' ::
            ([] ++ (['7'] ++ ([' '] ++ ("R2".toList ++ ([' '] ++ (['0', '.', '5'] ++ ([' '] ++ '}' :: [])))))))))))))))))))) := by
      decide +kernel
    rw [e]
    refine .short .nil hb hg (.plain (by decide) (by decide) (by decide) (by decide) .nil) ?_
    refine .full hg hA hg hg (.plain (by decide) (by decide) (by decide) (by decide) .nil) ?_ hg (.nil .nil)
    refine .method (.white (by decide) (.block (b := [' ', 'x', ' ']) (by simp only [Lec.Written.NoEnd]; decide) hg)) rfl (hne _).2 ?_
    refine .before hg hg (by decide) .nil (by simp only [Digits]; decide) (by decide) (by decide) (hne _).1 ?_
    exact .test (w := "R2") hg (by decide) (hne _).2 (.num hg n5 (by decide) (hne _).1 .nil) .nil
  have hm : List.Forall₂ (Means same fun _ l => l == ['B'])
      [⟨['a'], ['B'], []⟩, ⟨['A'], ['C'], [.method 2, .date (-(dec ['7'] : Nat)), .test 7 (ieee (5 / 10))]⟩]
      [⟨['a'], ['B'], 0, noSmpl, [], ['a'], [], 0, List.replicate 20 (.num 0)⟩,
       ⟨['A'], [], 2, noSmpl, [], ['A'], [], -7, tests1 (.num (1 / 2)) (.num 0)⟩] := by
    refine .cons ?_ (.cons ?_ .nil)
    · exact ⟨rfl, ⟨_, _, Texts.C49_short (by decide) (by decide), decoded_same, by decide, rfl⟩, rfl, rfl, .inl ⟨rfl, rfl⟩, rfl,
        .inl ⟨rfl, rfl⟩, rfl, rfl, by decide +kernel⟩
    · exact ⟨rfl, ⟨_, _, Texts.C49_short (by decide) (by decide), decoded_same, by decide, rfl⟩, rfl, rfl, .inl ⟨rfl, rfl⟩, rfl,
        .inl ⟨rfl, rfl⟩, by decide +kernel, rfl, by decide +kernel⟩
  obtain ⟨db, h1, _, h2⟩ := C51_load (vs := none) hl (by decide +kernel) (by
    intro d hd i hi
    simp only [List.mem_cons, List.not_mem_nil, or_false] at hd
    rcases hd with rfl | rfl
    · cases hi
    · simp only [List.mem_cons, List.not_mem_nil, or_false] at hi
      rcases hi with rfl | rfl | rfl <;> trivial) hm
  refine ⟨db, h1, ?_, ?_⟩ <;> rw [h2] <;> decide +kernel

/-! ## Where this fails -/

/-- Every compiler accepts everything. -/
def any : Yy.Text → Yy.Text → Bool := fun _ _ => true

/-- An equation of this formula, without anything else. -/
def plain (k l : Yy.Text) : Eqn := ⟨k, l, 0, noSmpl, [], k, [], 0, List.replicate 20 (.num 0)⟩

/-- When the block is empty the file that is written can not be read: the equations from there on are lost. -/
theorem C51_block_counterexample :
    (saveEqs same [(['A'], plain ['A'] ['x']), (['B'], { plain ['B'] ['y'] with block := [] }), (['C'], plain ['C'] ['z'])]).1 = true ∧
    loadEqs same any none
      (saveEqs same [(['A'], plain ['A'] ['x']), (['B'], { plain ['B'] ['y'] with block := [] }), (['C'], plain ['C'] ['z'])]).2 =
      .ok (.bad, [(['A'], plain ['A'] ['x'])]) := by decide +kernel

/-- So it is for an empty formula, which is what a formula that does not compile becomes when it is loaded. -/
theorem C51_formula_counterexample :
    loadEqs same (fun _ _ => false) none (saveEqs same [(['A'], plain ['A'] ['x'])]).2 = .ok (.good (), [(['A'], plain ['A'] [])]) ∧
    loadEqs same (fun _ _ => false) none (saveEqs same [(['A'], plain ['A'] [])]).2 = .ok (.bad, []) := by decide +kernel

/-- Without a sample, the date and the tests are not written. -/
theorem C51_sample_counterexample :
    loadEqs same any none (saveEqs same [(['A'], { plain ['A'] ['x'] with date := 5, tests := tests1 (.num 1) (.num 2) })]).2 =
      .ok (.good (), [(['A'], plain ['A'] ['x'])]) := by decide +kernel

/-- The correlation (the test at place 0) and the standard error in percent (place 5) are not written. -/
theorem C51_tests_counterexample :
    loadEqs same any none (saveEqs same [(['A'], { plain ['A'] ['x'] with
        sample := years, tests := (((tests1 (.num 1) (.num 2)).set 0 (.num 7)).set 5 (.num 8)) })]).2 =
      .ok (.good (), [(['A'], { plain ['A'] ['x'] with sample := years, tests := tests1 (.num 1) (.num 2) })]) := by decide +kernel

/-- An infinite test is written as the word `inf`: there the equation ends. -/
theorem C51_infinity_counterexample :
    loadEqs same any none (saveEqs same [(['A'], { plain ['A'] ['x'] with sample := years, tests := tests1 (.num 1) .inf })]).2 = .ub := by
  decide +kernel

/-- Eight digits are not always enough for a `float`. -/
theorem C51_digits_counterexample : Single (16384001 / 2 ^ 14) ∧
    loadEqs same any none (saveEqs same [(['A'], { plain ['A'] ['x'] with sample := years, tests := tests1 (.num (16384001 / 2 ^ 14)) (.num 0) })]).2 =
      .ok (.good (), [(['A'], { plain ['A'] ['x'] with sample := years, tests := tests1 (.num (16384002 / 2 ^ 14)) (.num 0) })]) := by
  refine ⟨⟨⟨16384001, -14, by norm_num, by norm_num, by norm_num⟩, by norm_num [abs_of_pos]⟩, by decide +kernel⟩

/-- A method that is not known becomes `LSQ`. -/
theorem C51_method_counterexample :
    loadEqs same any none (saveEqs same [(['A'], { plain ['A'] ['x'] with method := 9 })]).2 =
      .ok (.good (), [(['A'], plain ['A'] ['x'])]) := by decide +kernel

/-- A power of two variables is changed. -/
theorem C51_power_counterexample :
    loadEqs same any none (saveEqs same [(['A'], plain ['A'] ['B', '^', 'C'])]).2 =
      .ok (.good (), [(['A'], plain ['A'] ['B', Char.ofNat 3])]) := by decide +kernel

/-- Quotes in a remark of a formula are not escaped. -/
theorem C51_quote_counterexample :
    loadEqs same any none (saveEqs same [(['A'], plain ['A'] "B /* \"x\" */".toList)]).2 = .ub := by decide +kernel

/-- A name without a formula: a string is made of a null pointer. -/
theorem C51_string_counterexample (cv : Conv) (valid : Yy.Text → Yy.Text → Bool) (vs : Option Sample) :
    loadEqs cv valid vs ['A', ' ', '1'] = .ub := by rfl

/-- An empty comment can not be read: the equations from there on are lost. -/
theorem C51_empty_counterexample :
    loadEqs same any none "A \"x\" B { \"y\" COMMENT \"\" } C \"z\"".toList = .ok (.bad, [(['A'], plain ['A'] ['x'])]) := by
  decide +kernel

/-- Two signs do not cancel. -/
example : loadEqs same any none "A { \"x\" DATE - - 7 }".toList =
    .ok (.good (), [(['A'], { plain ['A'] ['x'] with date := -7 })]) := by decide +kernel

/-- A code page with one letter above 127. -/
def latin : Conv :=
  ⟨fun t => if ∀ c ∈ t, c.toNat < 128 ∨ c = 'é' then some (t.map fun c => if c = 'é' then Char.ofNat 130 else c) else none,
   fun t => some (t.map fun c => if c = Char.ofNat 130 then 'é' else c)⟩

/-- A comment is converted once more than it is converted back: what is loaded can not be saved. -/
theorem C51_comment_counterexample :
    loadEqs latin any none (saveEqs latin [(['A'], { plain ['A'] ['x'] with comment := ['é'] })]).2 =
      .ok (.good (), [(['A'], { plain ['A'] ['x'] with comment := [Char.ofNat 130] })]) ∧
    (saveEqs latin [(['A'], { plain ['A'] ['x'] with comment := [Char.ofNat 130] })]).1 = false := by decide +kernel

/-- A name with `#` is valid but is not read again as one word. -/
theorem C51_hash_counterexample : checkName .equations ['A', '#'] = true ∧
    loadEqs same any none (saveEqs same [(['A', '#'], plain ['A', '#'] ['x'])]).2 = .ub := by decide +kernel

end Equations
end Asc
end Iode
