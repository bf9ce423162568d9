import Verif.Model.Tsp
import Verif.Props.C73

/-!
# C92: a file exported for TSP has all values in order, in lines that fit, and comments stay comments
-/
namespace Iode.Tsp

open Iode.Yy (Text skipSpaces isSpace)
open Iode.Printf (Dbl)
open Iode.Exp (Conf prePost vec texts value)
open Iode.Imp (Rule)

/-! ## What is written -/

/-- Words one behind the other, each with a blank behind it. -/
def joined (ws : List Text) : Text := ws.flatMap (· ++ [' '])

/-- A word that fits in a line of `lg` characters. -/
def Fits (lg : Nat) (w : Text) : Prop := w ≠ [] ∧ (∀ c ∈ w, 32 < c.toNat) ∧ w.length < lg

/-! ## Lines -/

theorem lastBlank_append (p i : Nat) (a b : Text) : lastBlank p i (a ++ b) = lastBlank (lastBlank p i a) (i + a.length) b := by
  induction a generalizing p i with
  | nil => rfl
  | cons c a ih =>
    rw [List.cons_append, lastBlank, lastBlank, ih, List.length_cons]
    congr 1
    omega

theorem lastBlank_none (p i : Nat) {a : Text} (h : ∀ c ∈ a, c ≠ ' ') : lastBlank p i a = p := by
  induction a generalizing i with
  | nil => rfl
  | cons c a ih => rw [lastBlank, if_neg (h c (by simp)), ih _ fun d hd => h d (by simp [hd])]

theorem lastBlank_end (a b : Text) (h : ∀ c ∈ b, c ≠ ' ') : lastBlank 0 0 ((a ++ [' ']) ++ b) = a.length := by
  rw [lastBlank_append, lastBlank_append, lastBlank_none _ _ h, lastBlank, if_pos rfl, lastBlank, Nat.zero_add]

theorem lastBlank_le (p i : Nat) (a : Text) (h : p < i + a.length ∨ a = []) : a = [] ∨ lastBlank p i a < i + a.length := by
  induction a generalizing p i with
  | nil => exact .inl rfl
  | cons c a ih =>
    right
    rw [lastBlank, List.length_cons]
    by_cases hc : c = ' '
    · rw [if_pos hc]
      rcases ih i (i + 1) (.inl (by omega)) with rfl | h'
      · simp [lastBlank]
      · omega
    · rw [if_neg hc]
      have hp : p < i + (a.length + 1) := by simpa using h
      rcases ih p (i + 1) (.inl (by omega)) with rfl | h'
      · simpa [lastBlank] using hp
      · omega

/-- What is in the first characters of words: some of the words, and part of the next one. -/
theorem take_joined {lg : Nat} (ws : List Text) (h : ∀ w ∈ ws, ∀ c ∈ w, 32 < c.toNat) (n : Nat) :
    ∃ m p, (joined ws).take n = joined (ws.take m) ++ p ∧ (∀ c ∈ p, c ≠ ' ') ∧ m ≤ ws.length ∧ (∀ w, ws.head? = some w → w.length < n → 1 ≤ m) := by
  induction ws generalizing n with
  | nil => exact ⟨0, [], by simp [joined], by simp, by simp, by simp⟩
  | cons w ws ih =>
    by_cases hn : w.length < n
    · obtain ⟨m, p, e1, e2, e3, _⟩ := ih (fun u hu => h u (by simp [hu])) (n - (w.length + 1))
      refine ⟨m + 1, p, ?_, e2, by simpa using e3, fun _ _ _ => by omega⟩
      have e : joined (w :: ws) = (w ++ [' ']) ++ joined ws := rfl
      rw [e, List.take_append, List.take_of_length_le (by simp; omega), List.take_succ_cons]
      have e' : joined (w :: ws.take m) = (w ++ [' ']) ++ joined (ws.take m) := rfl
      rw [e', List.append_assoc (w ++ [' ']), ← e1]
      simp
    · refine ⟨0, w.take n, ?_, ?_, by simp, ?_⟩
      · have e : joined (w :: ws) = w ++ ([' '] ++ joined ws) := by simp [joined]
        rw [e, List.take_append_of_le_length (by omega)]
        rfl
      · intro c hc
        have := h w (by simp) c (List.mem_of_mem_take hc)
        rintro rfl
        exact absurd this (by decide)
      · intro u hu hl
        cases hu
        omega

theorem joined_append (a b : List Text) : joined (a ++ b) = joined a ++ joined b := by simp [joined]

theorem joined_line {lg : Nat} {ws : List Text} (h : ∀ w ∈ ws, Fits lg w) : (joined ws).takeWhile (fun c => c ≠ '\n') = joined ws := by
  rw [List.takeWhile_eq_self_iff]
  intro c hc
  obtain ⟨w, hw, hc⟩ := List.mem_flatMap.mp hc
  rcases List.mem_append.mp hc with hc | hc
  · have := (h w hw).2.1 c hc
    simp only [ne_eq, decide_eq_true_eq]
    rintro rfl
    exact absurd this (by decide)
  · rw [List.mem_singleton.mp hc]; decide

theorem joined_last {ws : List Text} (h : ws ≠ []) : ∃ a, joined ws = a ++ [' '] := by
  refine ⟨joined ws.dropLast ++ ws.getLast h, ?_⟩
  conv => lhs; rw [← List.dropLast_append_getLast h, joined_append]
  simp [joined]

/-- A line ends behind a word. -/
theorem cut_joined {lg : Nat} {w : Text} {ws : List Text} (h : ∀ u ∈ w :: ws, Fits lg u) :
    ∃ m, 1 ≤ m ∧ m ≤ (w :: ws).length ∧ cut lg (joined (w :: ws)) = (joined ((w :: ws).take m)).length := by
  unfold cut
  rw [joined_line h]
  by_cases hl : (joined (w :: ws)).length ≤ lg
  · refine ⟨(w :: ws).length, by simp, Nat.le_refl _, ?_⟩
    simp only [List.take_of_length_le hl, List.take_length]
    rw [if_neg (by omega)]
  · obtain ⟨m, p, e1, e2, e3, e4⟩ := take_joined (lg := lg) (w :: ws) (fun u hu => (h u hu).2.1) lg
    have hm := e4 w rfl (h w (by simp)).2.2
    refine ⟨m, hm, e3, ?_⟩
    have hne : (w :: ws).take m ≠ [] := by
      intro h0
      have := congrArg List.length h0
      rw [List.length_take] at this
      simp at this
      omega
    obtain ⟨a, ha⟩ := joined_last hne
    have hlen : ((joined (w :: ws)).take lg).length = lg := by rw [List.length_take]; omega
    have hpos : 0 < a.length := by
      cases m with
      | zero => omega
      | succ m =>
        have e : joined ((w :: ws).take (m + 1)) = w ++ ([' '] ++ joined (ws.take m)) := by simp [joined]
        have hw : 0 < w.length := List.length_pos_of_ne_nil (h w (by simp)).1
        have := congrArg List.length (ha.symm.trans e)
        simp at this
        omega
    simp only [hlen]
    rw [e1, ha, lastBlank_end _ _ e2, if_pos ⟨by omega, Nat.le_refl _, hpos⟩]
    simp

theorem skip_joined {lg : Nat} {w : Text} {ws : List Text} (h : Fits lg w) : skipSpaces (joined (w :: ws)) = joined (w :: ws) := by
  obtain ⟨h1, h2, _⟩ := h
  cases w with
  | nil => exact absurd rfl h1
  | cons c w =>
    show List.dropWhile isSpace (c :: _) = _
    rw [List.dropWhile_cons_of_neg]
    · rfl
    · have := h2 c (by simp)
      unfold isSpace
      simp
      omega

/-- The words are in lines one behind the other, and no word is cut. -/
theorem wrap_joined {lg : Nat} (n : Nat) {ws : List Text} (h : ∀ w ∈ ws, Fits lg w) (hn : ws.length < n) :
    ∃ gs : List (List Text), gs.flatten = ws ∧ (∀ g ∈ gs, g ≠ []) ∧ wrap lg n (joined ws) = gs.map joined := by
  induction n generalizing ws with
  | zero => omega
  | succ n ih =>
    cases ws with
    | nil => exact ⟨[], rfl, by simp, rfl⟩
    | cons w ws =>
      obtain ⟨m, h1, h2, h3⟩ := cut_joined h
      have hsplit : joined (w :: ws) = joined ((w :: ws).take m) ++ joined ((w :: ws).drop m) := by rw [← joined_append, List.take_append_drop]
      have hne : (w :: ws).take m ≠ [] := by
        intro h0
        have := congrArg List.length h0
        rw [List.length_take] at this
        simp at this
        omega
      have ht : (joined (w :: ws)).take (cut lg (joined (w :: ws))) = joined ((w :: ws).take m) := by
        rw [h3, hsplit, List.take_left']
        rfl
      have hd : (joined (w :: ws)).drop (cut lg (joined (w :: ws))) = joined ((w :: ws).drop m) := by
        rw [h3, hsplit, List.drop_left']
        rfl
      have step : wrap lg (n + 1) (joined (w :: ws)) =
          joined ((w :: ws).take m) :: (if joined ((w :: ws).drop m) = [] then [] else wrap lg n (joined ((w :: ws).drop m))) := by
        rw [← ht, ← hd, wrap, skip_joined (h w (by simp))]
        have : ∃ c r, joined (w :: ws) = c :: r := by
          cases hw : w with
          | nil => exact ⟨' ', joined ws, rfl⟩
          | cons c r => exact ⟨c, _, rfl⟩
        obtain ⟨c, r, e⟩ := this
        rw [e]
      by_cases hz : (w :: ws).drop m = []
      · refine ⟨[(w :: ws).take m], ?_, ?_, ?_⟩
        · have := List.take_append_drop m (w :: ws)
          rw [hz] at this
          simpa using this
        · intro g hg
          rw [List.mem_singleton.mp hg]
          exact hne
        · rw [step, hz]
          rfl
      · obtain ⟨gs, g1, g2, g3⟩ := ih (ws := (w :: ws).drop m) (fun u hu => h u (List.mem_of_mem_drop hu)) (by rw [List.length_drop]; simp at hn ⊢; omega)
        refine ⟨(w :: ws).take m :: gs, ?_, ?_, ?_⟩
        · rw [List.flatten_cons, g1, List.take_append_drop]
        · intro g hg
          rcases List.mem_cons.mp hg with rfl | hg
          · exact hne
          · exact g2 g hg
        · rw [step, if_neg, g3]
          · rfl
          · intro h0
            obtain ⟨a, ha⟩ := joined_last hz
            rw [h0] at ha
            simp at ha

theorem cut_le (lg : Nat) (s : Text) : cut lg s ≤ lg := by
  unfold cut
  generalize hl : (s.takeWhile (fun c => c ≠ '\n')).take lg = l
  have h1 : l.length ≤ lg := by rw [← hl, List.length_take]; omega
  simp only []
  split
  · rename_i h
    rcases lastBlank_le 0 0 l (by cases l <;> simp) with rfl | h'
    · simp at h
      simp [lastBlank] at h
    · omega
  · exact h1

/-- No character of the first line is an end of line. -/
theorem cut_free (lg : Nat) (s : Text) : '\n' ∉ s.take (cut lg s) := by
  have h0 : cut lg s ≤ (s.takeWhile (fun c => c ≠ '\n')).length := by
    unfold cut
    generalize hl : (s.takeWhile (fun c => c ≠ '\n')).take lg = l
    have h1 : l.length ≤ (s.takeWhile (fun c => c ≠ '\n')).length := by rw [← hl, List.length_take]; omega
    simp only []
    split
    · rename_i h
      rcases lastBlank_le 0 0 l (by cases l <;> simp) with rfl | h'
      · simp [lastBlank] at h
      · omega
    · exact h1
  intro hm
  have e : s = s.takeWhile (fun c => c ≠ '\n') ++ s.dropWhile (fun c => c ≠ '\n') := List.takeWhile_append_dropWhile.symm
  rw [e, List.take_append_of_le_length (by rw [← e]; exact h0)] at hm
  have := List.mem_of_mem_take hm
  have := List.mem_takeWhile_imp this
  simp at this

/-- C92. No line is longer than allowed or has an end of line in it, whatever the text. -/
theorem C92_lines (lg : Nat) (s : Text) : ∀ l ∈ lines lg s, l.length ≤ lg ∧ '\n' ∉ l := by
  unfold lines
  generalize s.length + 1 = n
  induction n generalizing s with
  | zero => simp [wrap]
  | succ n ih =>
    rw [wrap]
    cases skipSpaces s with
    | nil => simp
    | cons c r =>
      intro l hl
      rcases List.mem_cons.mp hl with rfl | hl
      · exact ⟨by rw [List.length_take]; have := cut_le lg (c :: r); omega, cut_free lg _⟩
      · split at hl
        · simp at hl
        · exact ih _ l hl

theorem cut_pos {lg : Nat} (h : 0 < lg) {c : Char} {r : Text} (hc : isSpace c = false) : 0 < cut lg (c :: r) := by
  have hn : c ≠ '\n' := by
    rintro rfl
    exact absurd hc (by decide)
  unfold cut
  rw [List.takeWhile_cons_of_pos (by simpa using hn)]
  cases lg with
  | zero => omega
  | succ n =>
    rw [List.take_succ_cons]
    simp only []
    split <;> simp

theorem filter_skip (s : Text) : (skipSpaces s).filter (fun c => !isSpace c) = s.filter (fun c => !isSpace c) := by
  unfold skipSpaces
  induction s with
  | nil => rfl
  | cons c s ih =>
    by_cases h : isSpace c = true
    · rw [List.dropWhile_cons_of_pos h, ih, List.filter_cons_of_neg (by simp [h])]
    · rw [List.dropWhile_cons_of_neg h]

theorem skip_head {s r : Text} {c : Char} (h : skipSpaces s = c :: r) : isSpace c = false := by
  unfold skipSpaces at h
  induction s with
  | nil => cases h
  | cons d s ih =>
    by_cases hd : isSpace d = true
    · rw [List.dropWhile_cons_of_pos hd] at h; exact ih h
    · rw [List.dropWhile_cons_of_neg hd] at h
      cases h
      simpa using hd

theorem skip_length (s : Text) : (skipSpaces s).length ≤ s.length := by
  unfold skipSpaces
  exact (List.dropWhile_sublist _).length_le

/-- C92. The lines of a text have all its characters in order, but for blanks, whatever the text. -/
theorem C92_text {lg : Nat} (h : 0 < lg) (s : Text) : (lines lg s).flatten.filter (fun c => !isSpace c) = s.filter (fun c => !isSpace c) := by
  have key : ∀ n (s : Text), s.length < n → (wrap lg n s).flatten.filter (fun c => !isSpace c) = s.filter (fun c => !isSpace c) := by
    intro n
    induction n with
    | zero => intro s hs; omega
    | succ n ih =>
      intro s hs
      rw [wrap, ← filter_skip s]
      have hl := skip_length s
      cases hk : skipSpaces s with
      | nil => rfl
      | cons c r =>
        have hc := cut_pos h (r := r) (skip_head hk)
        rw [hk] at hl
        simp only [List.flatten_cons, List.filter_append]
        have e : (c :: r).filter (fun c => !isSpace c) =
            ((c :: r).take (cut lg (c :: r))).filter (fun c => !isSpace c) ++ ((c :: r).drop (cut lg (c :: r))).filter (fun c => !isSpace c) := by
          rw [← List.filter_append, List.take_append_drop]
        rw [e]
        congr 1
        by_cases hz : (c :: r).drop (cut lg (c :: r)) = []
        · rw [if_pos hz, hz]; rfl
        · rw [if_neg hz]
          refine ih _ ?_
          rw [List.length_drop]
          simp only [List.length_cons] at hl ⊢
          omega
  exact key _ s (by omega)

/-! ## The file -/

theorem strip_visible {w : Text} (h : ∀ c ∈ w, 32 < c.toNat) : RepFn.stripText w = w := by
  unfold RepFn.stripText
  cases hr : w.reverse with
  | nil => rw [List.reverse_eq_nil_iff.mp hr]; rfl
  | cons c r =>
    have hc : c ∈ w := by rw [← List.mem_reverse, hr]; simp
    rw [List.dropWhile_cons_of_neg (by have := h c hc; simp; omega), ← hr, List.reverse_reverse]

/-- C92. What is written for a variable: its new name, its comment on lines that all begin with a question mark, then all its values in order, on lines of at most 80 characters that end behind a
value. -/
theorem C92_variable_partial (cf : Conf) (cmts : SMap Text) (w name : Text) (vs : List Dbl) (hname : ∀ c ∈ name, 32 < c.toNat) (hv : ∀ v ∈ vs, Fits 80 (value cf v)) :
    ∃ (cs : List Text) (gs : List (List Text)),
      block cf cmts vs.length (w, name, vs) = .ok ("LOAD ".toList ++ name ++ " ;\n \n".toList ++ cs.flatMap (fun l => "? ".toList ++ l ++ ['\n']) ++
        gs.flatMap (fun g => joined g ++ ['\n']) ++ " ;\n".toList) ∧
      (∀ l ∈ cs, l.length ≤ 75 ∧ '\n' ∉ l) ∧
      cs.flatten.filter (fun c => !isSpace c) = ((SMap.find (toKey .comments w) cmts).getD []).filter (fun c => !isSpace c) ∧ gs.flatten = vs.map (value cf) ∧ ∀ g ∈ gs, g ≠ [] ∧ (joined g).length ≤ 80 := by
  have hj : vec (prePost [] [' ']) cf vs.length vs = .ok (joined (vs.map (value cf))) := by
    rw [Exp.vec_ok]
    congr 1
    unfold joined
    rw [List.flatMap_map]
    induction vs with
    | nil => rfl
    | cons v vs ih =>
      rw [List.flatMap_cons, List.flatMap_cons, ih fun u hu => hv u (by simp [hu])]
      unfold prePost
      rw [strip_visible (hv v (by simp)).2.1, List.nil_append]
  have hf : ∀ u ∈ vs.map (value cf), Fits 80 u := by
    intro u hu
    obtain ⟨v, h1, rfl⟩ := List.mem_map.mp hu
    exact hv v h1
  have hlen : ∀ ws : List Text, ws.length ≤ (joined ws).length := by
    intro ws
    induction ws with
    | nil => simp
    | cons w ws ih =>
      have e : joined (w :: ws) = w ++ ([' '] ++ joined ws) := by simp [joined]
      rw [e]
      simp
      omega
  obtain ⟨gs, g1, g2, g3⟩ := wrap_joined ((joined (vs.map (value cf))).length + 1) hf (by have := hlen (vs.map (value cf)); omega)
  have g4 : lines 80 (joined (vs.map (value cf))) = gs.map joined := g3
  refine ⟨lines 75 (comment cmts w), gs, ?_, C92_lines 75 _, ?_, g1, fun g hg => ⟨g2 g hg, ?_⟩⟩
  · unfold block
    simp only [hj, Res.bind, g4]
    unfold prePost
    rw [strip_visible hname, List.flatMap_map]
    have t1 : "LOAD ".toList = ['L', 'O', 'A', 'D', ' '] := by decide +kernel
    have t2 : " ;\n \n".toList = [' ', ';', '\n', ' ', '\n'] := by decide +kernel
    have t3 : " ;\n".toList = [' ', ';', '\n'] := by decide +kernel
    have t4 : "? ".toList = ['?', ' '] := by decide +kernel
    rw [t1, t2, t3, t4]
    simp [List.append_assoc]
  · rw [C92_text (by decide)]
    unfold comment
    cases SMap.find (toKey .comments w) cmts <;> rfl
  · exact (C92_lines 80 (joined (vs.map (value cf))) _ (by rw [g4]; exact List.mem_map_of_mem hg)).1

/-- C92. The first two lines tell the frequency and the first and last period for yearly, quarterly and monthly samples. -/
theorem C92_header_partial (smp : Sample) :
    (smp.start.periodicity = 'Y' → header smp = .ok ("FREQ A;\nSMPL ".toList ++ (toString smp.start.year).toList ++ [' '] ++ (toString smp.stop.year).toList ++ " ;\n".toList)) ∧
    (smp.start.periodicity = 'Q' → header smp = .ok ("FREQ Q;\nSMPL ".toList ++ (toString smp.start.year).toList ++ [':'] ++ (toString smp.start.step).toList ++ [' '] ++
      (toString smp.stop.year).toList ++ [':'] ++ (toString smp.stop.step).toList ++ " ;\n".toList)) ∧
    (smp.start.periodicity = 'M' → header smp = .ok ("FREQ M;\nSMPL ".toList ++ (toString smp.start.year).toList ++ [':'] ++ (toString smp.start.step).toList ++ [' '] ++
      (toString smp.stop.year).toList ++ [':'] ++ (toString smp.stop.step).toList ++ " ;\n".toList)) := by
  have t0 : " ;\n".toList = [' ', ';', '\n'] := by decide +kernel
  have t1 : "FREQ A;\nSMPL ".toList = ['F', 'R', 'E', 'Q', ' ', 'A', ';', '\n', 'S', 'M', 'P', 'L', ' '] := by decide +kernel
  have t2 : "FREQ Q;\nSMPL ".toList = ['F', 'R', 'E', 'Q', ' ', 'Q', ';', '\n', 'S', 'M', 'P', 'L', ' '] := by decide +kernel
  have t3 : "FREQ M;\nSMPL ".toList = ['F', 'R', 'E', 'Q', ' ', 'M', ';', '\n', 'S', 'M', 'P', 'L', ' '] := by decide +kernel
  rw [t0, t1, t2, t3]
  refine ⟨fun h => ?_, fun h => ?_, fun h => ?_⟩
  · unfold header
    rw [h, show nbPeriodsPerYear 'Y' = .ok 1 by decide]
    simp [Res.bind]
  · unfold header
    rw [h, show nbPeriodsPerYear 'Q' = .ok 4 by decide]
    simp [Res.bind, yearStep]
  · unfold header
    rw [h, show nbPeriodsPerYear 'M' = .ok 12 by decide]
    simp [Res.bind, yearStep]

/-- For the other periodicities neither the frequency nor the sample is written: files of different samples are the same. -/
theorem C92_other_counterexample (smp : Sample) (h : smp.start.periodicity ∈ ['S', 'W', 'D']) : header smp = .ok ("FREQ ;\nSMPL  ;\n".toList) := by
  have t0 : "FREQ ;\nSMPL  ;\n".toList = ['F', 'R', 'E', 'Q', ' ', ';', '\n', 'S', 'M', 'P', 'L', ' ', ' ', ';', '\n'] := by decide +kernel
  rw [t0]
  unfold header
  simp only [List.mem_cons, List.not_mem_nil, or_false] at h
  rcases h with h | h | h
  · rw [h, show nbPeriodsPerYear 'S' = .ok 2 by decide]; rfl
  · rw [h, show nbPeriodsPerYear 'W' = .ok 52 by decide]; rfl
  · rw [h, show nbPeriodsPerYear 'D' = .ok 365 by decide]; rfl

/-- C92. The file is the header, then what is written for each variable that fits a rule, in the order of the names. -/
theorem C92_file (cf : Conf) (rules : List Rule) (smp : Sample) (vars : SMap (List Dbl)) (cmts : SMap Text) {h : Text} (hh : header smp = .ok h)
    {es : List (Text × Text × List Dbl)} (he : Exp.chosen rules vars = .ok es) (b : Text × Text × List Dbl → Text)
    (hb : ∀ e ∈ es, block cf cmts smp.nb.toNat e = .ok (b e)) : tsp cf rules smp vars cmts = .ok (h ++ es.flatMap b) := by
  have ht : texts (block cf cmts smp.nb.toNat) es = .ok (es.flatMap b) := by
    clear he
    induction es with
    | nil => rfl
    | cons e es ih =>
      rw [texts, hb e (by simp), ih fun u hu => hb u (by simp [hu])]
      rfl
  unfold tsp
  rw [hh, he]
  simp only [Res.bind, ht]

/-! ## Examples -/

def usual : Conf := ⟨[' '], ['#', 'N', '/', 'A']⟩

theorem fits_one : Fits 80 (value usual (.num 1)) := by unfold Fits; decide +kernel
theorem fits_na : Fits 80 (value usual Asc.na) := by unfold Fits; decide +kernel

example : ∃ (cs : List Text) (gs : List (List Text)),
    block usual [(['A'], ['t', ' ', '\n', 'w', 'o'])] 2 (['A'], ['B'], [.num 1, Asc.na]) = .ok ("LOAD ".toList ++ ['B'] ++ " ;\n \n".toList ++ cs.flatMap (fun l => "? ".toList ++ l ++ ['\n']) ++
      gs.flatMap (fun g => joined g ++ ['\n']) ++ " ;\n".toList) ∧
    (∀ l ∈ cs, l.length ≤ 75 ∧ '\n' ∉ l) ∧ cs.flatten.filter (fun c => !isSpace c) = ['t', 'w', 'o'] ∧ gs.flatten = [.num 1, Asc.na].map (value usual) ∧ ∀ g ∈ gs, g ≠ [] ∧ (joined g).length ≤ 80 :=
  C92_variable_partial usual [(['A'], ['t', ' ', '\n', 'w', 'o'])] ['A'] ['B'] [.num 1, Asc.na] (by decide) (by
    intro v hv
    simp only [List.mem_cons, List.not_mem_nil, or_false] at hv
    rcases hv with rfl | rfl
    · exact fits_one
    · exact fits_na)

/-- A comment of two lines, and values that need two lines. -/
example : tsp usual [(['*'], List.replicate 20 '+')] ⟨⟨2000, 1, 'Q'⟩, ⟨2000, 4, 'Q'⟩, 4⟩ [(['A'], [.num 1, Asc.na, .num (-3), .num (1 / 2)])] [(['A'], "one\n two".toList)] =
    .ok "FREQ Q;\nSMPL 2000:1 2000:4 ;\nLOAD A ;\n \n? one\n? two\n1 #N/A -3 0.5 \n ;\n".toList := by decide +kernel

/-- Blanks at the end of a line are kept, words are not cut when they fit. -/
example : lines 8 "one two three".toList = ["one two ".toList, "three".toList] ∧ lines 4 "one twothree".toList = ["one ".toList, "twot".toList, "hree".toList] := by decide +kernel

example : header ⟨⟨1990, 1, 'Y'⟩, ⟨2000, 1, 'Y'⟩, 11⟩ = .ok "FREQ A;\nSMPL 1990 2000 ;\n".toList := by
  rw [(C92_header_partial _).1 rfl]
  decide +kernel

example : header ⟨⟨1990, 1, 'S'⟩, ⟨2000, 2, 'S'⟩, 22⟩ = header ⟨⟨1970, 1, 'S'⟩, ⟨1971, 2, 'S'⟩, 4⟩ := by
  rw [C92_other_counterexample _ (by decide), C92_other_counterexample _ (by decide)]

end Iode.Tsp
