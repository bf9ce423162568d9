import Verif.Model.EqsCmd
import Verif.Props.C74
import Verif.Lemmas.Text

/-!
# C76: the commands that describe how equations are estimated change the equations they name
-/
namespace Iode.EqsCmd

open Iode.Args (Text pieces)
open DataCmd (Out bseps left arg0 loop tabs special plain)
open Iode.DataCmd.Written

variable {R : Type}

/-- The equations with these names are changed by `f`, the others are not. -/
def Given (st st' : SMap (Eqn R)) (names : List Text) (f : Eqn R → Eqn R) : Prop :=
  ∀ k, SMap.find k st' = if k ∈ names.map (toKey .equations) then (SMap.find k st).map f else SMap.find k st

/-- There is an equation with this name. -/
def Known (st : SMap (Eqn R)) (w : Text) : Prop := Typed .equations w ∧ ∃ e, SMap.find (toKey .equations w) st = some e

theorem typed_ne {w : Text} (h : Typed .equations w) : toKey .equations w ≠ [] := (checkName_chars h.2).1

theorem change_known {st : SMap (Eqn R)} {w : Text} (f : Eqn R → Eqn R) (h : Known st w) :
    ∃ st', change f st w = .done st' ∧ ∀ k, SMap.find k st' = if k = toKey .equations w then (SMap.find k st).map f else SMap.find k st := by
  obtain ⟨ht, e, he⟩ := h
  refine ⟨_, by unfold change; rw [if_neg (typed_ne ht), he], fun k => ?_⟩
  by_cases hk : k = toKey .equations w
  · rw [if_pos hk, hk, SMap.find_insert_self, he]; rfl
  · rw [if_neg hk, SMap.find_insert_ne _ _ hk]

theorem change_unknown {st : SMap (Eqn R)} {w : Text} (f : Eqn R → Eqn R) (h : SMap.find (toKey .equations w) st = none) : change f st w = .thrown st := by
  unfold change
  rw [h]
  split <;> rfl

theorem change_loop (f : Eqn R → Eqn R) (hf : ∀ e, f (f e) = f e) : ∀ (ws : List Text) (st : SMap (Eqn R)), (∀ w ∈ ws, Known st w) →
    ∃ st', (∀ rest, loop (change f) (ws ++ rest) st = loop (change f) rest st') ∧ Given st st' ws f
  | [], st, _ => ⟨st, fun _ => rfl, fun _ => by simp⟩
  | w :: ws, st, h => by
    obtain ⟨st1, e1, e2⟩ := change_known f (h w (by simp))
    have h1 : ∀ v ∈ ws, Known st1 v := by
      intro v hv
      obtain ⟨ht, e, he⟩ := h v (by simp [hv])
      refine ⟨ht, ?_⟩
      rw [e2]
      split
      · exact ⟨f e, by rw [he]; rfl⟩
      · exact ⟨e, he⟩
    obtain ⟨st2, g1, g2⟩ := change_loop f hf ws st1 h1
    refine ⟨st2, fun rest => ?_, fun k => ?_⟩
    · rw [List.cons_append, loop, e1]
      exact g1 rest
    · rw [g2, e2]
      simp only [List.map_cons, List.mem_cons]
      by_cases hk : k = toKey .equations w
      · rw [if_pos hk, if_pos (show k = toKey .equations w ∨ k ∈ ws.map (toKey .equations) from Or.inl hk)]
        split
        · cases SMap.find k st with
          | none => rfl
          | some e => simp [hf]
        · rfl
      · rw [if_neg hk]
        by_cases hm : k ∈ ws.map (toKey .equations)
        · rw [if_pos hm, if_pos (show k = toKey .equations w ∨ k ∈ ws.map (toKey .equations) from Or.inr hm)]
        · rw [if_neg hm, if_neg (by rintro (h | h); exacts [hk h, hm h])]

theorem given_unknown {st st' : SMap (Eqn R)} {names : List Text} {f : Eqn R → Eqn R} (h : Given st st' names f) {w : Text} (hw : SMap.find (toKey .equations w) st = none) :
    SMap.find (toKey .equations w) st' = none := by
  rw [h, hw]; split <;> rfl

/-! ## Samples -/

/-- The sample from one written period to another one. -/
def Between (p q : Text) (s : Sample) : Prop := ∃ a b, Period.parse p = .ok a ∧ Period.parse q = .ok b ∧ Sample.ofPeriods a b = .ok s

theorem between_eq {p q : Text} {s : Sample} (h : Between p q s) : ((Period.parse p).bind fun a => (Period.parse q).bind fun b => Sample.ofPeriods a b) = .ok s := by
  obtain ⟨a, b, h1, h2, h3⟩ := h
  rw [h1]; show (Period.parse q).bind _ = _; rw [h2]; exact h3

/-- `$EqsSetSample from to names` gives the sample to the equations with these names and changes nothing else; one separator is between the words. -/
theorem C76_sample {st : SMap (Eqn R)} {arg p q : Text} {names : List Text} {s : Sample} (h : splitMulti arg = p :: q :: names) (hs : Between p q s) (hn : ∀ w ∈ names, Known st w) :
    ∃ st', setSample st arg = .done st' ∧ Given st st' names fun e => { e with sample := some s } := by
  obtain ⟨st', e1, e2⟩ := change_loop (fun e => { e with sample := some s }) (fun _ => rfl) names st hn
  refine ⟨st', ?_, e2⟩
  unfold setSample
  rw [h]
  simp only []
  rw [between_eq hs]
  have := e1 []
  rwa [List.append_nil] at this

/-- A word that is not the name of an equation, an empty one too: an exception leaves the command, the equations in front of it have the sample. -/
theorem C76_sample_unknown {st : SMap (Eqn R)} {arg p q : Text} {before behind : List Text} {w : Text} {s : Sample} (h : splitMulti arg = p :: q :: (before ++ w :: behind)) (hs : Between p q s)
    (hn : ∀ w ∈ before, Known st w) (hw : SMap.find (toKey .equations w) st = none) :
    ∃ st', setSample st arg = .thrown st' ∧ Given st st' before fun e => { e with sample := some s } := by
  obtain ⟨st', e1, e2⟩ := change_loop (fun e => { e with sample := some s }) (fun _ => rfl) before st hn
  refine ⟨st', ?_, e2⟩
  unfold setSample
  rw [h]
  simp only []
  rw [between_eq hs]
  have := e1 (w :: behind)
  simp only [] at this ⊢
  rw [this, loop, change_unknown _ (given_unknown e2 hw)]

/-- Without two periods that make a sample the command fails and nothing changes. -/
theorem C76_sample_refused (st : SMap (Eqn R)) (arg : Text) (h : ∀ p q names, splitMulti arg = p :: q :: names → ((Period.parse p).bind fun a => (Period.parse q).bind fun b => Sample.ofPeriods a b) = .err) :
    setSample st arg = .failed st := by
  unfold setSample
  rcases e : splitMulti arg with - | ⟨p, - | ⟨q, names⟩⟩
  · rfl
  · rfl
  · simp only []
    rw [h p q names e]

/-! ## Blocks -/

/-- `$EqsSetBlock names` gives each of the equations the names, with `;` between them. -/
theorem C76_block {W : Args.World} (hW : W.sp = Args.seps) {st : SMap (Eqn R)} {arg : Text} (hq : '"' ∉ arg) {names : List Text} (hp : pieces Args.seps arg = names) (hn : ∀ w ∈ names, Known st w) :
    ∃ st', setBlock W st arg = .done st' ∧ Given st st' names fun e => { e with block := (names.intersperse [';']).flatten } := by
  subst hp
  have hj : ∀ l : List Text, Lists.join l = (l.intersperse [';']).flatten := by
    intro l
    induction l with
    | nil => rfl
    | cons a l ih =>
      cases l with
      | nil => simp [Lists.join]
      | cons b l => rw [Lists.join, ih]; simp; simp
  obtain ⟨st', e1, e2⟩ := change_loop (fun e => { e with block := ((pieces Args.seps arg).intersperse [';']).flatten }) (fun _ => rfl) _ st hn
  refine ⟨st', ?_, e2⟩
  unfold setBlock forAll
  rw [DataCmd.init_names hW hq (ty := .equations) fun w hw => (hn w hw).1]
  simp only [hj]
  have := e1 []
  rwa [List.append_nil] at this

/-- A name without equation: an exception leaves the command, the equations in front of it have the block. -/
theorem C76_block_unknown {W : Args.World} (hW : W.sp = Args.seps) {st : SMap (Eqn R)} {arg : Text} (hq : '"' ∉ arg) {before behind : List Text} {w : Text}
    (hp : pieces Args.seps arg = before ++ w :: behind) (hn : ∀ w ∈ before, Known st w) (ha : ∀ v ∈ w :: behind, Typed .equations v) (hw : SMap.find (toKey .equations w) st = none) :
    ∃ st' t, setBlock W st arg = .thrown st' ∧ Given st st' before fun e => { e with block := t } := by
  obtain ⟨st', e1, e2⟩ := change_loop (fun e => { e with block := Lists.join (before ++ w :: behind) }) (fun _ => rfl) before st hn
  refine ⟨st', _, ?_, e2⟩
  unfold setBlock forAll
  rw [DataCmd.init_names hW hq (ty := .equations) (by
    rw [hp]
    intro v hv
    rcases List.mem_append.mp hv with hv | hv
    · exact (hn v hv).1
    · exact ha v hv), hp]
  simp only []
  rw [e1 (w :: behind), loop, change_unknown _ (given_unknown e2 hw)]

/-! ## Methods -/

theorem digit_special {c : Char} (h : isDigitC c = true) : c ∉ special := by
  intro hs
  unfold special at hs
  simp only [List.mem_cons, List.not_mem_nil, or_false] at hs
  revert h
  revert hs
  repeat' first | rintro (rfl | hs) | (rintro rfl; decide) | (revert hs)
  all_goals decide

theorem left_word {w : Text} (hs : ∀ c ∈ w, isDigitC c = true) (hne : w ≠ []) (r : Text) : left (w ++ r) = w ++ tabs r := by
  have hsp : ∀ c, isDigitC c = true → isSpaceC c = false ∧ c ≠ '\t' := by
    intro c hc
    refine ⟨?_, by rintro rfl; simp [isDigitC] at hc⟩
    simp only [isDigitC, Bool.and_eq_true, decide_eq_true_eq] at hc
    simp only [isSpaceC, Bool.or_eq_false_iff, decide_eq_false_iff_not, Bool.and_eq_false_iff]
    omega
  have hm : (w ++ r).map (fun c => if c = '\t' then ' ' else c) = w ++ tabs r := by
    rw [List.map_append]
    congr 1
    conv => rhs; rw [← List.map_id w]
    refine List.map_congr_left fun c hc => ?_
    rw [if_neg (hsp c (hs c hc)).2]
    rfl
  have hd : (w ++ tabs r).dropWhile isSpaceC = w ++ tabs r := by
    cases w with
    | nil => exact absurd rfl hne
    | cons c w =>
      rw [List.cons_append, List.dropWhile_cons_of_neg]
      rw [(hsp c (hs c (by simp))).1]
      simp
  unfold left
  simp only [hm, hd]
  rw [if_neg]
  intro e
  exact hne (List.append_eq_nil_iff.mp e).1

theorem pieces_tabs (t : Text) : pieces Args.seps (tabs t) = pieces Args.seps t := by
  unfold pieces tabs
  congr 1
  induction t with
  | nil => rfl
  | cons c t ih =>
    rw [List.map_cons, List.splitOnP_cons, List.splitOnP_cons, ih]
    by_cases hc : c = '\t'
    · subst hc
      rw [if_pos (by decide), if_pos (by decide)]
    · rw [if_neg hc]

theorem no_quote_tabs {t : Text} (h : '"' ∉ t) : '"' ∉ tabs t := by
  unfold tabs
  intro hm
  obtain ⟨c, hc, e⟩ := List.mem_map.mp hm
  split at e
  · exact absurd e (by decide)
  · exact h (e ▸ hc)

theorem short_number {n : Nat} (h : n < 128) : (natToChars n).length ≤ 3 := by
  rw [natToChars]
  split
  · simp
  · rw [natToChars]
    split
    · simp
    · rw [natToChars]
      split
      · simp
      · omega

/-- `$EqsSetMethod n names` gives the method to the equations with these names and changes nothing else. -/
theorem C76_method {W : Args.World} (hW : W.sp = Args.seps) {st : SMap (Eqn R)} {n : Nat} (hn : n < 128) {c : Char} (hc : c ∈ bseps) {r : Text} (hq : '"' ∉ r) {names : List Text}
    (hp : pieces Args.seps r = names) (hk : ∀ w ∈ names, Known st w) :
    ∃ st', setMethod W st (natToChars n ++ c :: r) = .done st' ∧ Given st st' names fun e => { e with method := n } := by
  subst hp
  have hdig := natToChars_isDigit n
  have hne := natToChars_ne_nil n
  have hlen := short_number hn
  have hl := left_word hdig hne (c :: r)
  obtain ⟨d, hd, e⟩ := DataCmd.tabs_cons hc r
  have hnb : ∀ x ∈ natToChars n, x ∉ bseps := fun x hx hb => digit_special (hdig x hx) (DataCmd.bseps_special hb)
  have ht : ((natToChars n ++ tabs (c :: r)).take 14).takeWhile (· ∉ bseps) = natToChars n := by
    rw [e, List.take_append, List.take_of_length_le (by omega : (natToChars n).length ≤ 14), List.takeWhile_append_of_pos (by simpa using hnb)]
    obtain ⟨m, hm⟩ : ∃ m, 14 - (natToChars n).length = m + 1 := ⟨13 - (natToChars n).length, by omega⟩
    rw [hm, List.take_succ_cons, List.takeWhile_cons_of_neg (by simpa using hd), List.append_nil]
  have hat : Report.atoi (natToChars n) = some (n : Int) := by
    have hsp : ∀ x, isDigitC x = true → Report.isSpace x = false := by
      intro x hx
      have hne : ∀ y : Char, isDigitC y = false → x ≠ y := by rintro y hy rfl; rw [hx] at hy; cases hy
      have h1 := hne ' ' (by decide)
      have h2 := hne '\t' (by decide)
      have h3 := hne '\n' (by decide)
      have h4 := hne '\r' (by decide)
      simp only [isDigitC, Bool.and_eq_true, decide_eq_true_eq] at hx
      simp only [Report.isSpace, Bool.or_eq_false_iff, decide_eq_false_iff_not]
      refine ⟨⟨⟨⟨⟨h1, h2⟩, h3⟩, h4⟩, ?_⟩, ?_⟩ <;> omega
    have hv := digitsVal_natToChars n
    have htw : (natToChars n).takeWhile isDigitC = natToChars n := by rw [List.takeWhile_eq_self_iff]; exact hdig
    unfold Report.atoi
    cases hx : natToChars n with
    | nil => exact absurd hx hne
    | cons x l =>
      rw [hx] at hdig htw hv
      have hx0 := hdig x (by simp)
      rw [List.dropWhile_cons_of_neg (by rw [hsp x hx0]; simp)]
      split
      · rename_i e; rw [(List.cons.inj e).1] at hx0; exact absurd hx0 (by decide)
      · rename_i e; rw [(List.cons.inj e).1] at hx0; exact absurd hx0 (by decide)
      · simp only [htw, hv]
        rw [if_pos (by omega)]
  obtain ⟨st', e1, e2⟩ := change_loop (fun e => { e with method := (n : Int) }) (fun _ => rfl) _ st hk
  refine ⟨st', ?_, e2⟩
  unfold setMethod
  simp only [hl, ht, hat]
  unfold forAll
  have hdrop : (natToChars n ++ tabs (c :: r)).drop (natToChars n).length = tabs (c :: r) := by simp
  have hcs : c ∈ Args.seps := by
    unfold bseps at hc
    simp only [List.mem_cons, List.not_mem_nil, or_false] at hc
    rcases hc with rfl | rfl | rfl | rfl <;> decide
  have hpc : pieces Args.seps (tabs (c :: r)) = pieces Args.seps r := by
    rw [pieces_tabs]
    unfold pieces
    rw [List.splitOnP_cons, if_pos (by simpa using hcs)]
    simp
  have hcq : c ≠ '"' := by
    rintro rfl
    exact absurd hcs (by decide)
  rw [hdrop, DataCmd.init_names hW (no_quote_tabs (by simp [hq, hcq.symm])) (ty := .equations) (by rw [hpc]; exact fun w hw => (hk w hw).1), hpc]
  simp only []
  have hm : toChar (n : Int) = n := by unfold toChar; omega
  rw [hm]
  have := e1 []
  rwa [List.append_nil] at this

/-! ## Comments and instruments -/

theorem setText_spec (f : Text → Eqn R → Eqn R) {st : SMap (Eqn R)} {w r : Text} {c : Char} (hw : Typed .equations w) (hl : w.length < 16) (hc : c ∈ bseps) :
    setText f st (w ++ c :: r) = change (f (tabs r)) st w := by
  obtain ⟨p1, p2, p3, p4⟩ := DataCmd.arg_parts hw hc r
  unfold setText
  simp only [p1, p2]
  rw [if_neg (by omega), if_neg p3, p4]

theorem given_one {st st' : SMap (Eqn R)} {w : Text} {f : Eqn R → Eqn R} (h : ∀ k, SMap.find k st' = if k = toKey .equations w then (SMap.find k st).map f else SMap.find k st) : Given st st' [w] f := by
  intro k
  rw [h]
  simp

/-- `$EqsSetCmt name text` gives the text behind the name and one separator, with blanks for tabs, as comment to the equation; names have less than 16 characters. -/
theorem C76_comment {st : SMap (Eqn R)} {w r : Text} {c : Char} (hw : Known st w) (hl : w.length < 16) (hc : c ∈ bseps) :
    ∃ st', setComment st (w ++ c :: r) = .done st' ∧ Given st st' [w] fun e => { e with comment := tabs r } := by
  obtain ⟨st', e1, e2⟩ := change_known (fun e => { e with comment := tabs r }) hw
  exact ⟨st', by unfold setComment; rw [setText_spec _ hw.1 hl hc]; exact e1, given_one e2⟩

/-- `$EqsSetInstrs name text` gives the instruments in the same way. -/
theorem C76_instruments {st : SMap (Eqn R)} {w r : Text} {c : Char} (hw : Known st w) (hl : w.length < 16) (hc : c ∈ bseps) :
    ∃ st', setInstruments st (w ++ c :: r) = .done st' ∧ Given st st' [w] fun e => { e with instruments := tabs r } := by
  obtain ⟨st', e1, e2⟩ := change_known (fun e => { e with instruments := tabs r }) hw
  exact ⟨st', by unfold setInstruments; rw [setText_spec _ hw.1 hl hc]; exact e1, given_one e2⟩

/-- Without such an equation an exception leaves both commands and nothing changes. -/
theorem C76_text_unknown {st : SMap (Eqn R)} {w r : Text} {c : Char} (hw : Typed .equations w) (hn : SMap.find (toKey .equations w) st = none) (hl : w.length < 16) (hc : c ∈ bseps) :
    setComment st (w ++ c :: r) = .thrown st ∧ setInstruments st (w ++ c :: r) = .thrown st := by
  unfold setComment setInstruments
  rw [setText_spec _ hw hl hc, setText_spec _ hw hl hc]
  exact ⟨change_unknown _ hn, change_unknown _ hn⟩

/-- Equations with names of 16 characters or more, which are allowed, have no comment and no instruments that way: the name does not fit the buffer. -/
theorem C76_long_name_undefined (st : SMap (Eqn R)) {w r : Text} {c : Char} (hw : Typed .equations w) (hl : 16 ≤ w.length) (hc : c ∈ bseps) :
    setComment st (w ++ c :: r) = .ub ∧ setInstruments st (w ++ c :: r) = .ub := by
  obtain ⟨p1, p2, p3, p4⟩ := DataCmd.arg_parts hw hc r
  unfold setComment setInstruments setText
  simp only [p1, p2]
  rw [if_pos hl, if_pos hl]
  exact ⟨rfl, rfl⟩

/-! ## Examples and counterexamples -/

abbrev none3 : Eqn Nat := ⟨0, none, 0, [], [], []⟩
abbrev three : SMap (Eqn Nat) := [("A".toList, none3), ("B".toList, none3), ("C".toList, none3)]
abbrev tens : Sample := ⟨⟨2000, 1, 'Y'⟩, ⟨2009, 1, 'Y'⟩, 10⟩

theorem known3 : Known three "A".toList ∧ Known three "b".toList ∧ Known three "C".toList :=
  ⟨⟨by unfold Typed; decide +kernel, none3, by decide +kernel⟩, ⟨by unfold Typed; decide +kernel, none3, by decide +kernel⟩, ⟨by unfold Typed; decide +kernel, none3, by decide +kernel⟩⟩

example : splitMulti "2000Y1 2009Y1 A,b".toList = "2000Y1".toList :: "2009Y1".toList :: ["A".toList, "b".toList] ∧ (∀ w ∈ ["A".toList, "b".toList], Known three w) ∧
    setSample three "2000Y1 2009Y1 A,b".toList = .done [("A".toList, { none3 with sample := some tens }), ("B".toList, { none3 with sample := some tens }), ("C".toList, none3)] :=
  ⟨by decide +kernel, by simp only [List.mem_cons, List.not_mem_nil, or_false]; rintro w (rfl | rfl); exacts [known3.1, known3.2.1], by decide +kernel⟩

example : setMethod plain three "2 A C".toList = .done [("A".toList, { none3 with method := 2 }), ("B".toList, none3), ("C".toList, { none3 with method := 2 })] := by decide +kernel

example : setBlock plain three "A;B".toList = .done [("A".toList, { none3 with block := "A;B".toList }), ("B".toList, { none3 with block := "A;B".toList }), ("C".toList, none3)] := by decide +kernel

example : setBlock plain three "A D B".toList = .thrown [("A".toList, { none3 with block := "A;D;B".toList }), ("B".toList, none3), ("C".toList, none3)] := by decide +kernel

example : setComment three "B the text".toList = .done [("A".toList, none3), ("B".toList, { none3 with comment := "the text".toList }), ("C".toList, none3)] ∧
    setInstruments three "B X;Y".toList = .done [("A".toList, none3), ("B".toList, { none3 with instruments := "X;Y".toList }), ("C".toList, none3)] ∧ setComment three "D text".toList = .thrown three := by
  decide +kernel

example : Typed .equations "ABCDEFGHIJKLMNOP".toList ∧ 16 ≤ "ABCDEFGHIJKLMNOP".toList.length := by unfold Typed; decide +kernel

/-- Two blanks are an empty word between them: the sample is refused, or an exception leaves the command at the empty name. -/
theorem C76_blanks_counterexample : setSample three "2000Y1  2009Y1 A".toList = .failed three ∧
    setSample three "2000Y1 2009Y1 A  B".toList = .thrown [("A".toList, { none3 with sample := some tens }), ("B".toList, none3), ("C".toList, none3)] := by decide +kernel

/-- Any number is a method, and a word is the method 0. -/
theorem C76_method_counterexample : setMethod plain three "300 A".toList = .done [("A".toList, { none3 with method := 44 }), ("B".toList, none3), ("C".toList, none3)] ∧
    setMethod plain [("A".toList, { none3 with method := 2 })] "A A".toList = .done [("A".toList, none3)] := by decide +kernel

/-- A name with nothing behind it: the text is read behind its end. -/
theorem C76_nothing_undefined : setComment three "A".toList = .ub ∧ setInstruments three "A".toList = .ub := by decide +kernel

end Iode.EqsCmd
