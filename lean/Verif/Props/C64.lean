import Verif.Spec.Args
import Mathlib.Data.List.SplitOn
import Mathlib.Data.List.TakeWhile

/-!
# C64: the arguments of commands
-/
namespace Iode.Args

theorem bind_ok {α β : Type} (a : α) (f : α → Res β) : (Res.ok a).bind f = f a := rfl

theorem append_nil (a : Out) : a.append ⟨[], false⟩ = a := by simp [Out.append]

/-! ## Words -/

variable {sp : List Char}

theorem read_skip : ∀ {s : Text} (t : Text), (∀ c ∈ s, c ∈ sp) → readFrom sp [] false (s ++ t) = readFrom sp [] false t
  | [], _, _ => rfl
  | c :: s, t, h => by
    rw [List.cons_append, readFrom, if_pos ⟨rfl, h c (by simp)⟩, if_neg (by simp)]
    exact read_skip t fun c hc => h c (by simp [hc])

theorem read_word {c : Char} (hc : c ∈ sp) (r : Text) : ∀ {u acc : Text}, (∀ c ∈ u, c ∉ sp ∧ c ≠ '"') → acc ++ u ≠ [] → (acc ++ u).length ≤ 128 →
    readFrom sp acc false (u ++ c :: r) = some (acc ++ u, r)
  | [], acc, _, h0, _ => by
    rw [List.append_nil] at *
    rw [List.nil_append, readFrom, if_pos ⟨rfl, hc⟩, if_pos h0]
  | x :: u, acc, h, _, hl => by
    obtain ⟨h1, h2⟩ := h x (by simp)
    have hlt : acc.length < maxArg := by simp only [List.length_append, List.length_cons] at hl; unfold maxArg; omega
    rw [List.cons_append, readFrom, if_neg (fun h => h1 h.2), if_pos hlt, if_neg h2, read_word hc r (fun c hc => h c (by simp [hc])) (by simp) (by simpa using hl)]
    simp

theorem read_end : ∀ {u acc : Text}, (∀ c ∈ u, c ∉ sp ∧ c ≠ '"') → acc ++ u ≠ [] → (acc ++ u).length ≤ 128 → readFrom sp acc false u = some (acc ++ u, [])
  | [], acc, _, h0, _ => by
    rw [List.append_nil] at *
    rw [readFrom, if_neg h0]
  | x :: u, acc, h, _, hl => by
    obtain ⟨h1, h2⟩ := h x (by simp)
    have hlt : acc.length < maxArg := by simp only [List.length_append, List.length_cons] at hl; unfold maxArg; omega
    rw [readFrom, if_neg (fun h => h1 h.2), if_pos hlt, if_neg h2, read_end (fun c hc => h c (by simp [hc])) (by simp) (by simpa using hl)]
    simp

theorem pieces_nil : pieces sp [] = [] := by simp [pieces]

theorem pieces_skip : ∀ {s : Text} (t : Text), (∀ c ∈ s, c ∈ sp) → pieces sp (s ++ t) = pieces sp t
  | [], _, _ => rfl
  | c :: s, t, h => by
    have : pieces sp (c :: (s ++ t)) = pieces sp (s ++ t) := by
      unfold pieces
      rw [List.splitOnP_cons, if_pos (by simpa using h c (by simp))]
      simp
    rw [List.cons_append, this]
    exact pieces_skip t fun c hc => h c (by simp [hc])

theorem pieces_word {c : Char} (hc : c ∈ sp) (r : Text) {u : Text} (h : ∀ c ∈ u, c ∉ sp) (h0 : u ≠ []) : pieces sp (u ++ c :: r) = u :: pieces sp r := by
  unfold pieces
  rw [List.splitOnP_first (by simpa using h) _ (by simpa using hc) _, List.filter_cons, if_pos (by simpa using h0)]

theorem pieces_end {u : Text} (h : ∀ c ∈ u, c ∉ sp) (h0 : u ≠ []) : pieces sp u = [u] := by
  unfold pieces
  rw [List.splitOnP_eq_singleton (by simpa using h)]
  simp [h0]

/-- A text is empty but for separators, or one word, or a word and the text behind it. -/
theorem text_cases (sp : List Char) (t : Text) : (∃ s, t = s ∧ ∀ c ∈ s, c ∈ sp) ∨
    ∃ s u, (∀ c ∈ s, c ∈ sp) ∧ (∀ c ∈ u, c ∉ sp) ∧ u ≠ [] ∧ (t = s ++ u ∨ ∃ c r, c ∈ sp ∧ t = s ++ (u ++ c :: r)) := by
  have hs : ∀ c ∈ t.takeWhile (· ∈ sp), c ∈ sp := fun c hc => by simpa using List.mem_takeWhile_imp hc
  have e : t = t.takeWhile (· ∈ sp) ++ t.dropWhile (· ∈ sp) := List.takeWhile_append_dropWhile.symm
  cases hd : t.dropWhile (· ∈ sp) with
  | nil =>
    left
    refine ⟨t, rfl, ?_⟩
    rw [hd, List.append_nil] at e
    rw [e]
    exact hs
  | cons x d =>
    right
    have hx : x ∉ sp := by
      have := List.head_dropWhile_not (· ∈ sp) (l := t) (by rw [hd]; simp)
      simpa [hd] using this
    rw [hd] at e
    refine ⟨_, (x :: d).takeWhile (· ∉ sp), hs, fun c hc => by simpa using List.mem_takeWhile_imp hc, by simp [hx], ?_⟩
    have e2 : x :: d = (x :: d).takeWhile (· ∉ sp) ++ (x :: d).dropWhile (· ∉ sp) := List.takeWhile_append_dropWhile.symm
    cases hd2 : (x :: d).dropWhile (· ∉ sp) with
    | nil => rw [hd2, List.append_nil] at e2; left; rw [← e2]; exact e
    | cons y r =>
      right
      rw [hd2] at e2
      refine ⟨y, r, ?_, by rw [← e2]; exact e⟩
      have := List.head_dropWhile_not (· ∉ sp) (l := x :: d) (by rw [hd2]; simp)
      simp only [hd2, List.head_cons] at this
      simpa using this

theorem words_fit : ∀ (n : Nat) (t : Text), t.length < n → Fit sp t → wordsN sp n t = pieces sp t := by
  intro n
  induction n with
  | zero => intro t h; omega
  | succ n ih =>
    intro t hn hf
    unfold wordsN readWord
    rcases text_cases sp t with ⟨s, rfl, hs⟩ | ⟨s, u, hs, hu, h0, rfl | ⟨c, r, hc, rfl⟩⟩
    · have h1 := read_skip (sp := sp) [] hs
      have h2 := pieces_skip (sp := sp) [] hs
      rw [List.append_nil] at h1 h2
      rw [h1, h2, pieces_nil]
      simp [readFrom]
    · obtain ⟨hq, hl⟩ := hf
      have hp : pieces sp (s ++ u) = [u] := by rw [pieces_skip _ hs, pieces_end hu h0]
      rw [hp] at hl
      have hr := read_end (sp := sp) (acc := []) (u := u) (fun c hc => ⟨hu c hc, fun e => hq (e ▸ by simp [hc])⟩) (by simpa using h0) (by simpa using hl u (by simp))
      rw [read_skip _ hs, hr, hp]
      cases n with
      | zero => rfl
      | succ n => simp [wordsN, readWord, readFrom]
    · obtain ⟨hq, hl⟩ := hf
      have hp : pieces sp (s ++ (u ++ c :: r)) = u :: pieces sp r := by rw [pieces_skip _ hs, pieces_word hc r hu h0]
      rw [hp] at hl
      have hr := read_word hc r (acc := []) (u := u) (fun c hc => ⟨hu c hc, fun e => hq (e ▸ by simp [hc])⟩) (by simpa using h0) (by simpa using hl u (by simp))
      rw [read_skip _ hs, hr, hp]
      simp only [List.nil_append]
      rw [ih r (by simp at hn; omega) ⟨fun h => hq (by simp [h]), fun w hw => hl w (by simp [hw])⟩]

theorem words_eq {t : Text} (h : Fit sp t) : words sp t = pieces sp t := words_fit _ t (by omega) h

/-! ## One word -/

/-- A word as it is found between separators. -/
def Single (sp : List Char) (w : Text) : Prop := w ≠ [] ∧ (∀ c ∈ w, c ∉ sp ∧ c ≠ '"') ∧ w.length ≤ 128

theorem Single.fit {w : Text} (h : Single sp w) : Fit sp w := by
  refine ⟨fun hq => (h.2.1 _ hq).2 rfl, ?_⟩
  rw [pieces_end (fun c hc => (h.2.1 c hc).1) h.1]
  simpa using h.2.2

theorem Single.read {w : Text} (h : Single sp w) : readWord sp w = some (w, []) := by
  have := read_end (sp := sp) (acc := []) (u := w) h.2.1 (by simpa using h.1) (by simpa using h.2.2)
  simpa [readWord] using this

theorem pieces_single : ∀ (n : Nat) (t : Text), t.length < n → Fit sp t → ∀ w ∈ pieces sp t, Single sp w := by
  intro n
  induction n with
  | zero => intro t h; omega
  | succ n ih =>
    intro t hn hf
    rcases text_cases sp t with ⟨s, rfl, hs⟩ | ⟨s, u, hs, hu, h0, rfl | ⟨c, r, hc, rfl⟩⟩
    · have h2 := pieces_skip (sp := sp) [] hs
      rw [List.append_nil] at h2
      rw [h2, pieces_nil]
      simp
    · obtain ⟨hq, hl⟩ := hf
      have hp : pieces sp (s ++ u) = [u] := by rw [pieces_skip _ hs, pieces_end hu h0]
      rw [hp] at hl ⊢
      intro w hw
      have hlw := hl w hw
      simp only [List.mem_singleton] at hw
      subst hw
      exact ⟨h0, fun c hc => ⟨hu c hc, fun e => hq (e ▸ by simp [hc])⟩, hlw⟩
    · obtain ⟨hq, hl⟩ := hf
      have hp : pieces sp (s ++ (u ++ c :: r)) = u :: pieces sp r := by rw [pieces_skip _ hs, pieces_word hc r hu h0]
      rw [hp] at hl ⊢
      intro w hw
      rcases List.mem_cons.mp hw with rfl | hw
      · exact ⟨h0, fun c hc => ⟨hu c hc, fun e => hq (e ▸ by simp [hc])⟩, hl _ (by simp)⟩
      · exact ih r (by simp at hn; omega) ⟨fun h => hq (by simp [h]), fun w hw => hl w (by simp [hw])⟩ w hw

theorem Fit.single {t : Text} (h : Fit sp t) : ∀ w ∈ pieces sp t, Single sp w := pieces_single _ t (Nat.lt_succ_self _) h

variable {W : World}

/-- What one word adds. -/
def single (W : World) (d : Option (Text → Res Out)) (w : Text) : Res Out :=
  if w.head? = some '@' ∨ w.head? = some '$' then
    match d with
    | none => .ok ⟨[], false⟩
    | some f =>
      if w.head? = some '@' then
        match W.file w.tail with
        | none => if w.tail.length ≥ 97 then .ub else .ok ⟨[], false⟩
        | some t => seqAll f (words W.sp t)
      else
        match W.look w.tail with
        | none => .ok ⟨[w], true⟩
        | some t => seqAll f (words W.sp t)
  else .ok ⟨[w], false⟩

theorem bind_nil (x : Res Out) : (x.bind fun a => (Res.ok (⟨[], false⟩ : Out)).bind fun b => .ok (a.append b)) = x := by
  cases x <;> simp [Res.bind, Out.append]

theorem words_nil : words W.sp [] = [] := by simp [words, wordsN, readWord, readFrom]

theorem addN_single (d : Option (Text → Res Out)) (n : Nat) {w : Text} (h : Single W.sp w) : addN W d (n + 1) w = single W d w := by
  unfold addN single
  simp only [h.read, Option.getD_some, words_nil, seqAll, bind_nil]
  split
  · rfl
  · rename_i hs
    rw [words_eq h.fit, pieces_end (fun c hc => (h.2.1 c hc).1) h.1]
    simp [seqAll, hs, Res.bind, Out.append]

theorem seqAll_congr {f g : Text → Res Out} : ∀ {ws : List Text}, (∀ w ∈ ws, f w = g w) → seqAll f ws = seqAll g ws
  | [], _ => rfl
  | w :: ws, h => by rw [seqAll, seqAll, h w (by simp), seqAll_congr fun w hw => h w (by simp [hw])]

theorem loop_eq (d : Option (Text → Res Out)) (n : Nat) {t : Text} (h : Fit W.sp t) :
    seqAll (fun w => if w.head? = some '@' ∨ w.head? = some '$' then addN W d (n + 1) w else .ok ⟨[w], false⟩) (words W.sp t) =
      seqAll (single W d) (pieces W.sp t) := by
  rw [words_eq h]
  refine seqAll_congr fun w hw => ?_
  split
  · exact addN_single d n (h.single w hw)
  · rename_i hs
    unfold single
    rw [if_neg hs]

/-- A text: its first word is followed by the others, unless it is a list or a file that does not exist. -/
theorem addN_text (hu : Usual W.sp) (f : Text → Res Out) (n : Nat) {t : Text} (h : Fit W.sp t) (hn : t.length ≤ n) :
    addN W (some f) (n + 1) t = seqAll (single W (some f)) (pieces W.sp t) ∨
    (∃ w ws, pieces W.sp t = w :: ws ∧ w.head? = some '$' ∧ W.look w.tail = none ∧ addN W (some f) (n + 1) t = .ok ⟨[w], true⟩) ∨
    (∃ w ws, pieces W.sp t = w :: ws ∧ w.head? = some '@' ∧ W.file w.tail = none) := by
  cases t with
  | nil => left; simp [addN, words_nil, pieces_nil, seqAll]
  | cons c t' =>
    obtain ⟨m, rfl⟩ : ∃ m, n = m + 1 := ⟨n - 1, by simp at hn; omega⟩
    have hloop := fun r (hr : Fit W.sp r) => loop_eq (W := W) (some f) m hr
    by_cases hs : (c :: t').head? = some '@' ∨ (c :: t').head? = some '$'
    · -- the word and what is behind it
      have hc : c ∉ W.sp := by
        rcases hs with e | e <;> simp only [List.head?_cons, Option.some.injEq] at e <;> subst e
        exacts [hu.2.1, hu.1]
      have hread : ∃ w r, readWord W.sp (c :: t') = some (w, r) ∧ pieces W.sp (c :: t') = w :: pieces W.sp r ∧ Fit W.sp r ∧ w.head? = some c := by
        rcases text_cases W.sp (c :: t') with ⟨s, e, hsp⟩ | ⟨s, u, hsp, hu, h0, e⟩
        · exact absurd (hsp c (by simp [← e])) hc
        · have hs0 : s = [] := by
            cases s with
            | nil => rfl
            | cons x s =>
              refine absurd (hsp x (by simp)) ?_
              have : x = c := by rcases e with e | ⟨_, _, _, e⟩ <;> simp at e <;> exact e.1.symm
              rw [this]; exact hc
          subst hs0
          rcases e with e | ⟨y, r, hy, e⟩
          · rw [List.nil_append] at e
            rw [e] at h ⊢
            have hp := pieces_end hu h0
            have hsg := h.single u (by simp [hp])
            exact ⟨u, [], hsg.read, by rw [hp, pieces_nil], ⟨by simp, by simp [pieces_nil]⟩, by rw [← e]; rfl⟩
          · rw [List.nil_append] at e
            rw [e] at h ⊢
            have hp := pieces_word hy r hu h0
            have hsg := h.single u (by simp [hp])
            have hr := read_word hy r (acc := []) (u := u) hsg.2.1 (by simpa using h0) (by simpa using hsg.2.2)
            refine ⟨u, r, by simpa [readWord] using hr, hp, ⟨fun hq => h.1 (by simp [hq]), fun w hw => h.2 w (by simp [hp, hw])⟩, ?_⟩
            cases u with
            | nil => exact absurd rfl h0
            | cons x u => simp at e; simp [e.1]
      obtain ⟨w, r, hr, hp, hfr, hwc⟩ := hread
      have hh : (c :: t').head? = w.head? := by rw [hwc]; rfl
      rw [addN]
      simp only [if_pos hs, hr, Option.getD_some, hloop r hfr]
      rw [hh] at hs ⊢
      by_cases ha : w.head? = some '@'
      · simp only [if_pos ha]
        cases hf : W.file w.tail with
        | none => right; right; exact ⟨w, _, hp, ha, hf⟩
        | some t =>
          left
          rw [hp, seqAll, single, if_pos hs]
          simp only [if_pos ha, hf]
      · simp only [if_neg ha]
        cases hf : W.look w.tail with
        | none => right; left; exact ⟨w, _, hp, hs.resolve_left ha, hf, rfl⟩
        | some t =>
          left
          rw [hp, seqAll, single, if_pos hs]
          simp only [if_neg ha, hf]
    · left
      unfold addN
      rw [if_neg hs]
      exact hloop _ h

/-! ## The theorems -/

/-- One level below. -/
def deep (W : World) : Nat → Option (Text → Res Out)
  | 0 => none
  | k + 1 => some (add W k)

theorem add_eq (W : World) (k : Nat) (t : Text) : add W k t = addN W (deep W k) (t.length + 1) t := by cases k <;> rfl

theorem seq_add (k : Nat) {ws : List Text} (h : ∀ w ∈ ws, Single W.sp w) : seqAll (add W k) ws = seqAll (single W (deep W k)) ws :=
  seqAll_congr fun w hw => by rw [add_eq, addN_single _ _ (h w hw)]

theorem single_word (d : Option (Text → Res Out)) {w : Text} (h : Ordinary w) : single W d w = .ok ⟨[w], false⟩ := if_neg (fun e => e.elim h.2 h.1)

theorem single_list (k : Nat) {x t : Text} (hl : W.look x = some t) : single W (deep W (k + 1)) ('$' :: x) = seqAll (add W k) (words W.sp t) := by
  simp [single, deep, hl]

theorem single_none (k : Nat) {x : Text} (hl : W.look x = none) : single W (deep W (k + 1)) ('$' :: x) = .ok ⟨['$' :: x], true⟩ := by
  simp [single, deep, hl]

theorem single_file (k : Nat) {x t : Text} (hl : W.file x = some t) : single W (deep W (k + 1)) ('@' :: x) = seqAll (add W k) (words W.sp t) := by
  simp [single, deep, hl]

theorem means_single {k : Nat} {ws out : List Text} (h : Means W k ws out) : (∀ w ∈ ws, Single W.sp w) → seqAll (single W (deep W k)) ws = .ok ⟨out, false⟩ := by
  induction h with
  | nil k => intro _; rfl
  | @word k w ws out ho _ ih =>
    intro hs
    rw [seqAll, ih fun w hw => hs w (by simp [hw]), single_word _ ho]
    rfl
  | @list k x t ws a b hl hf _ _ ih1 ih2 =>
    intro hs
    rw [seqAll, ih2 fun w hw => hs w (by simp [hw]), single_list k hl, words_eq hf, seq_add k hf.single, ih1 hf.single]
    rfl
  | @file k x t ws a b hl hf _ _ ih1 ih2 =>
    intro hs
    rw [seqAll, ih2 fun w hw => hs w (by simp [hw]), single_file k hl, words_eq hf, seq_add k hf.single, ih1 hf.single]
    rfl

/-- Words are what stands between the separators. -/
theorem C64_words (sp : List Char) {t : Text} (h : Fit sp t) : words sp t = pieces sp t := words_eq h

/-- A text whose lists and files exist, nested at most ten deep, gives what its words mean, in their order. -/
theorem C64_arguments (hu : Usual W.sp) {t : Text} (h : Fit W.sp t) {out : List Text} (hm : Means W 10 (pieces W.sp t) out) : init W t = .ok (some out) := by
  have key : add W 10 t = .ok ⟨out, false⟩ := by
    rw [add_eq]
    rcases addN_text hu (add W 9) t.length h (Nat.le_refl _) with e | ⟨w, ws, hp, hw, hl, _⟩ | ⟨w, ws, hp, hw, hl⟩
    · exact e.trans (means_single hm h.single)
    · rw [hp] at hm
      cases hm with
      | word ho _ => exact absurd hw ho.1
      | list hl' => rw [List.tail_cons, hl'] at hl; simp at hl
      | file => simp at hw
    · rw [hp] at hm
      cases hm with
      | word ho _ => exact absurd hw ho.2
      | list => simp at hw
      | file hl' => rw [List.tail_cons, hl'] at hl; simp at hl
  rw [init, key]
  rfl

/-- Words that are not files and are found between separators: what they give, and which of them are left. -/
theorem seq_value (hfit : ∀ x t, W.look x = some t → Fit W.sp t) (P : Text → Prop) (hP : ∀ w, P w → w.head? ≠ some '@')
    (hlist : ∀ x t, W.look x = some t → ∀ w ∈ pieces W.sp t, P w) : ∀ (k : Nat) (ws : List Text), (∀ w ∈ ws, Single W.sp w ∧ P w) →
    ∃ o, seqAll (single W (deep W k)) ws = .ok o ∧ (∀ w ∈ o.vals, Single W.sp w ∧ P w) ∧ (o.d = false → value W k ws = some o.vals) ∧
      (o.d = true → value W k ws = none ∧ ∃ w ∈ o.vals, w.head? = some '$' ∧ W.look w.tail = none)
  | k, [], _ => ⟨⟨[], false⟩, rfl, by simp, by simp [value], by simp⟩
  | k, w :: ws, h => by
    obtain ⟨o2, e2, hin2, hf2, ht2⟩ := seq_value hfit P hP hlist k ws fun w hw => h w (by simp [hw])
    have hna := hP w (h w (by simp)).2
    by_cases hd : w.head? = some '$'
    · obtain ⟨x, rfl⟩ : ∃ x, w = '$' :: x := by
        cases w with
        | nil => simp at hd
        | cons c x => simp at hd; exact ⟨x, by rw [hd]⟩
      cases k with
      | zero =>
        refine ⟨o2, ?_, hin2, ?_, ?_⟩
        · rw [seqAll, e2]
          simp [single, deep, Res.bind, Out.append]
        · simpa [value] using hf2
        · simpa [value] using ht2
      | succ k =>
        cases hl : W.look x with
        | none =>
          refine ⟨(⟨['$' :: x], true⟩ : Out).append o2, ?_, ?_, ?_, ?_⟩
          · rw [seqAll, e2, single_none k hl]; rfl
          · intro w hw
            simp only [Out.append, List.singleton_append, List.mem_cons] at hw
            rcases hw with rfl | hw
            · exact h _ (by simp)
            · exact hin2 w hw
          · simp [Out.append]
          · intro _
            exact ⟨by simp [value, hl], '$' :: x, by simp [Out.append], rfl, hl⟩
        | some t =>
          have hft := hfit x t hl
          obtain ⟨o1, e1, hin1, hf1, ht1⟩ := seq_value hfit P hP hlist k (pieces W.sp t) fun w hw => ⟨hft.single w hw, hlist x t hl w hw⟩
          refine ⟨o1.append o2, ?_, ?_, ?_, ?_⟩
          · rw [seqAll, e2, single_list k hl, words_eq hft, seq_add k hft.single, e1]; rfl
          · intro w hw
            simp only [Out.append, List.mem_append] at hw
            exact hw.elim (hin1 w) (hin2 w)
          · intro hd
            simp only [Out.append, Bool.or_eq_false_iff] at hd
            simp [value, hl, hf1 hd.1, hf2 hd.2, Out.append]
          · intro hd
            simp only [Out.append, Bool.or_eq_true] at hd
            cases h1 : o1.d with
            | true =>
              obtain ⟨hv, w, hw, hw2⟩ := ht1 h1
              exact ⟨by simp [value, hl, hv], w, by simp [Out.append, hw], hw2⟩
            | false =>
              obtain ⟨hv, w, hw, hw2⟩ := ht2 (hd.resolve_left (by simp [h1]))
              exact ⟨by simp [value, hl, hv], w, by simp [Out.append, hw], hw2⟩
    · have hv : value W k (w :: ws) = (value W k ws).map (w :: ·) := by
        rw [value]
        intro x e
        simp [e] at hd
      refine ⟨(⟨[w], false⟩ : Out).append o2, ?_, ?_, ?_, ?_⟩
      · rw [seqAll, e2, single_word _ ⟨hd, hna⟩]; rfl
      · intro w' hw
        simp only [Out.append, List.singleton_append, List.mem_cons] at hw
        rcases hw with rfl | hw
        · exact h _ (by simp)
        · exact hin2 w' hw
      · intro hd
        simp only [Out.append, Bool.false_or] at hd
        simp [hv, hf2 hd, Out.append]
      · intro hd
        simp only [Out.append, Bool.false_or] at hd
        obtain ⟨hv2, w', hw, hw2⟩ := ht2 hd
        exact ⟨by simp [hv, hv2], w', by simp [Out.append, hw], hw2⟩
  termination_by k ws => (k, ws.length)

/-- Words that the theorems below are about: not files, and names of lists that fit a message. -/
def Short (w : Text) : Prop := w.head? ≠ some '@' ∧ (w.head? = some '$' → w.length < 90)

/-- What a text gives, whatever its lists contain: the arguments, or none when a list does not exist. -/
theorem C64_exact (hu : Usual W.sp) (hfit : ∀ x t, W.look x = some t → Fit W.sp t) (hlist : ∀ x t, W.look x = some t → ∀ w ∈ pieces W.sp t, Short w)
    {t : Text} (h : Fit W.sp t) (hs : ∀ w ∈ pieces W.sp t, Short w) : init W t = .ok (value W 10 (pieces W.sp t)) := by
  -- the second pass: a word that could not be replaced is met again
  have second : ∀ vals : List Text, (∀ w ∈ vals, Single W.sp w ∧ Short w) → (∃ w ∈ vals, w.head? = some '$' ∧ W.look w.tail = none) →
      ((seqAll (add W 10) vals).bind fun p => if p.d = false then .ok (some p.vals)
        else if p.vals.any fun w => w.head? = some '$' && decide (w.length ≥ 90) then .ub else .ok none) = .ok none := by
    intro vals hv ⟨w, hw, hw1, hw2⟩
    obtain ⟨o, e, hin, hf, _⟩ := seq_value hfit Short (fun _ h => h.1) hlist 10 vals hv
    have hnone : ∀ vs : List Text, w ∈ vs → value W 10 vs = none := by
      intro vs
      induction vs with
      | nil => simp
      | cons v vs ih =>
        intro hm
        rcases List.mem_cons.mp hm with rfl | hm'
        · cases w with
          | nil => simp at hw1
          | cons c x =>
            simp only [List.head?_cons, Option.some.injEq] at hw1
            subst hw1
            rw [List.tail_cons] at hw2
            simp [value, hw2]
        · by_cases hd : ∃ x, v = '$' :: x
          · obtain ⟨x, rfl⟩ := hd
            cases hl : W.look x with
            | none => simp [value, hl]
            | some t => simp [value, hl, ih hm']
          · rw [value]
            · simp [ih hm']
            · intro x e; exact hd ⟨x, e⟩
    have hd : o.d = true := by
      cases ho : o.d with
      | true => rfl
      | false => have := hf ho; rw [hnone vals hw] at this; simp at this
    rw [seq_add 10 (fun w hw => (hv w hw).1), e, bind_ok, if_neg (by simp [hd]), if_neg]
    simp only [List.any_eq_true, Bool.and_eq_true, decide_eq_true_eq, not_exists, not_and]
    intro v hv h1
    have := (hin v hv).2.2 h1
    omega
  obtain ⟨o, e, hin, hf, ht⟩ := seq_value hfit Short (fun _ h => h.1) hlist 10 (pieces W.sp t) fun w hw => ⟨h.single w hw, hs w hw⟩
  unfold init
  rcases addN_text hu (add W 9) t.length h (Nat.le_refl _) with e' | ⟨w, ws, hp, hw, hl, e'⟩ | ⟨w, ws, hp, hw, hl⟩
  · rw [add_eq, show addN W (deep W 10) (t.length + 1) t = .ok o from e'.trans e, bind_ok]
    cases ho : o.d with
    | false => rw [if_pos rfl, hf ho]
    | true =>
      rw [if_neg (by simp), second o.vals hin (ht ho).2, (ht ho).1]
  · rw [add_eq, show addN W (deep W 10) (t.length + 1) t = .ok ⟨[w], true⟩ from e', bind_ok, if_neg (by simp)]
    have hmem : w ∈ pieces W.sp t := by simp [hp]
    rw [second [w] (by simpa using ⟨h.single w hmem, hs w hmem⟩) ⟨w, by simp, hw, hl⟩, hp]
    cases w with
    | nil => simp at hw
    | cons c x =>
      simp only [List.head?_cons, Option.some.injEq] at hw
      subst hw
      rw [List.tail_cons] at hl
      simp [value, hl]
  · exact absurd hw (hs w (by simp [hp])).1

/-- A list that does not exist is not accepted. -/
theorem C64_unknown (hu : Usual W.sp) (hfit : ∀ x t, W.look x = some t → Fit W.sp t) (hlist : ∀ x t, W.look x = some t → ∀ w ∈ pieces W.sp t, Short w)
    {t : Text} (h : Fit W.sp t) (hs : ∀ w ∈ pieces W.sp t, Short w) {x : Text} (hx : '$' :: x ∈ pieces W.sp t) (hl : W.look x = none) : init W t = .ok none := by
  rw [C64_exact hu hfit hlist h hs]
  congr 1
  revert hx
  generalize pieces W.sp t = ws
  induction ws with
  | nil => simp
  | cons v vs ih =>
    intro hm
    rcases List.mem_cons.mp hm with rfl | hm'
    · simp [value, hl]
    · by_cases hd : ∃ y, v = '$' :: y
      · obtain ⟨y, rfl⟩ := hd
        cases hy : W.look y with
        | none => simp [value, hy]
        | some t => simp [value, hy, ih hm']
      · rw [value]
        · simp [ih hm']
        · intro y e; exact hd ⟨y, e⟩

theorem value_plain (W : World) (k : Nat) : ∀ (ws : List Text) {out : List Text}, value W k ws = some out → ∀ w ∈ out, w.head? ≠ some '$' := by
  have plain : ∀ {v : Text}, ¬ (∃ y, v = '$' :: y) → v.head? ≠ some '$' := by
    intro v hd e
    cases v with
    | nil => simp at e
    | cons c x => simp at e; exact hd ⟨x, by rw [e]⟩
  have other : ∀ (k : Nat) (v : Text) (vs : List Text), ¬ (∃ y, v = '$' :: y) → value W k (v :: vs) = (value W k vs).map (v :: ·) := by
    intro k v vs hd
    rw [value]
    intro x e
    exact hd ⟨x, e⟩
  induction k with
  | zero =>
    intro ws
    induction ws with
    | nil => intro out h; simp [value] at h; simp [h]
    | cons v vs ih =>
      intro out h
      by_cases hd : ∃ y, v = '$' :: y
      · obtain ⟨y, rfl⟩ := hd
        exact ih (by simpa [value] using h)
      · rw [other 0 v vs hd, Option.map_eq_some_iff] at h
        obtain ⟨b, hb, rfl⟩ := h
        intro w hw
        rcases List.mem_cons.mp hw with rfl | hw
        · exact plain hd
        · exact ih hb w hw
  | succ k ihk =>
    intro ws
    induction ws with
    | nil => intro out h; simp [value] at h; simp [h]
    | cons v vs ih =>
      intro out h
      by_cases hd : ∃ y, v = '$' :: y
      · obtain ⟨y, rfl⟩ := hd
        cases hy : W.look y with
        | none => simp [value, hy] at h
        | some t =>
          simp only [value, hy, Option.bind_eq_some_iff, Option.map_eq_some_iff] at h
          obtain ⟨a, ha, b, hb, rfl⟩ := h
          intro w hw
          rcases List.mem_append.mp hw with hw | hw
          · exact ihk (pieces W.sp t) ha w hw
          · exact ih hb w hw
      · rw [other _ v vs hd, Option.map_eq_some_iff] at h
        obtain ⟨b, hb, rfl⟩ := h
        intro w hw
        rcases List.mem_cons.mp hw with rfl | hw
        · exact plain hd
        · exact ih hb w hw

/-- No name of a list is left among the arguments. -/
theorem C64_replaced (hu : Usual W.sp) (hfit : ∀ x t, W.look x = some t → Fit W.sp t) (hlist : ∀ x t, W.look x = some t → ∀ w ∈ pieces W.sp t, Short w)
    {t : Text} (h : Fit W.sp t) (hs : ∀ w ∈ pieces W.sp t, Short w) {out : List Text} (he : init W t = .ok (some out)) : ∀ w ∈ out, w.head? ≠ some '$' := by
  rw [C64_exact hu hfit hlist h hs] at he
  exact value_plain W 10 _ (by simpa using he)

/-! ## Quotes -/

theorem read_quoted (r : Text) : ∀ {u acc : Text}, '"' ∉ u → acc ++ u ≠ [] → (acc ++ u).length ≤ 127 → readFrom sp acc true (u ++ '"' :: r) = some (acc ++ u, r)
  | [], acc, _, h0, hl => by
    rw [List.append_nil] at *
    rw [List.nil_append, readFrom, if_neg (by simp), if_pos (by unfold maxArg; omega), if_pos rfl, if_neg h0, if_pos rfl]
  | x :: u, acc, h, _, hl => by
    have hlt : acc.length < maxArg := by simp only [List.length_append, List.length_cons] at hl; unfold maxArg; omega
    rw [List.cons_append, readFrom, if_neg (by simp), if_pos hlt, if_neg (fun e => h (by simp [e])),
      read_quoted r (fun hq => h (by simp [hq])) (by simp) (by simpa using hl)]
    simp

theorem read_shorter : ∀ (t : Text) {acc : Text} {q : Bool} {w r : Text}, readFrom sp acc q t = some (w, r) → r.length ≤ t.length ∧ (t ≠ [] → r.length < t.length)
  | [], acc, q, w, r, h => by
    rw [readFrom] at h
    split at h
    · simp at h
    · simp at h; simp [h.2]
  | c :: t, acc, q, w, r, h => by
    have key : ∀ {acc : Text} {q : Bool}, readFrom sp acc q t = some (w, r) → r.length < (c :: t).length := fun h => by
      have := (read_shorter t h).1
      simp only [List.length_cons]; omega
    have key2 : ∀ {acc : Text}, some (acc, t) = some (w, r) → r.length < (c :: t).length := fun h => by
      simp at h; simp [h.2]
    have : r.length < (c :: t).length := by
      rw [readFrom] at h
      split at h
      · split at h
        · exact key2 h
        · exact key h
      · split at h
        · split at h
          · split at h
            · exact key h
            · split at h
              · exact key2 h
              · exact key h
          · exact key h
        · exact key h
    exact ⟨Nat.le_of_lt this, fun _ => this⟩

theorem wordsN_enough : ∀ (n m : Nat) (t : Text), t.length < n → t.length < m → wordsN sp n t = wordsN sp m t
  | 0, _, _, h, _ => by omega
  | _, 0, _, _, h => by omega
  | n + 1, m + 1, t, hn, hm => by
    rw [wordsN, wordsN]
    cases hr : readWord sp t with
    | none => rfl
    | some p =>
      obtain ⟨w, r⟩ := p
      have ht : t ≠ [] := fun e => by rw [e, readWord, readFrom, if_pos rfl] at hr; simp at hr
      have := (read_shorter t hr).2 ht
      simp only
      rw [wordsN_enough n m r (by omega) (by omega)]

theorem words_quoted (sp : List Char) (hq : '"' ∉ sp) {u : Text} (r : Text) (h0 : u ≠ []) (hu : '"' ∉ u) (hl : u.length ≤ 127) :
    words sp ('"' :: (u ++ '"' :: r)) = u :: words sp r := by
  have hr : readWord sp ('"' :: (u ++ '"' :: r)) = some (u, r) := by
    rw [readWord, readFrom, if_neg (fun h => hq h.2), if_pos (by decide), if_pos rfl, if_pos rfl, read_quoted r hu (by simpa using h0) (by simpa using hl)]
    simp
  unfold words
  rw [wordsN]
  simp only [hr]
  rw [wordsN_enough _ (r.length + 1) r (by simp only [List.length_cons, List.length_append]; omega) (by omega)]

/-- A text between quotes is one argument, with its separators. -/
theorem C64_quoted (hu : Usual W.sp) {u r : Text} (h0 : u ≠ []) (hq : '"' ∉ u) (hl : u.length ≤ 127) (ho : Ordinary u) (hr : Fit W.sp r)
    (hro : ∀ w ∈ pieces W.sp r, Ordinary w) : init W ('"' :: (u ++ '"' :: r)) = .ok (some (u :: pieces W.sp r)) := by
  have hall : ∀ (n : Nat) (ws : List Text), (∀ w ∈ ws, Ordinary w) →
      seqAll (fun w => if w.head? = some '@' ∨ w.head? = some '$' then addN W (some (add W 9)) n w else .ok ⟨[w], false⟩) ws = .ok ⟨ws, false⟩ := by
    intro n ws
    induction ws with
    | nil => intro _; rfl
    | cons w ws ih =>
      intro h
      rw [seqAll, ih fun w hw => h w (by simp [hw]), if_neg (fun e => e.elim (h w (by simp)).2 (h w (by simp)).1)]
      rfl
  have : add W 10 ('"' :: (u ++ '"' :: r)) = .ok ⟨u :: pieces W.sp r, false⟩ := by
    rw [add, addN, if_neg (by simp)]
    simp only []
    rw [words_quoted W.sp hu.2.2 r h0 hq hl, words_eq hr]
    exact hall _ _ (by simpa using ⟨ho, hro⟩)
  rw [init, this]
  rfl

/-! ## Examples and what is not so -/

/-- Lists `L` = "B C", `A` = "$A B" and `S` = "\"a b\" c"; a file `f`. -/
def world : World where
  sp := seps
  look := fun x => if x = "L".toList then some "B;C".toList else if x = "A".toList then some "$A B".toList else if x = "M".toList then some "x $L y".toList
    else if x = "Q".toList then some "\"a b\" c".toList else none
  file := fun x => if x = "f".toList then some "p\nq $L\n".toList else none

example : Usual world.sp := by unfold Usual; decide

example : Fit seps " A, B  CC;\n".toList := by unfold Fit; decide +kernel
example : words seps " A, B  CC;\n".toList = ["A".toList, "B".toList, "CC".toList] := by decide +kernel

example : init world "a $M,@f b".toList = .ok (some ["a".toList, "x".toList, "B".toList, "C".toList, "y".toList, "p".toList, "q".toList, "B".toList,
    "C".toList, "b".toList]) := by decide +kernel

example : init world "a $M b".toList = .ok (some ["a".toList, "x".toList, "B".toList, "C".toList, "y".toList, "b".toList]) := by decide +kernel

example : init world "a $NO b".toList = .ok none := by decide +kernel

example : init world "\"a, b\" c".toList = .ok (some ["a, b".toList, "c".toList]) := by decide +kernel

/-- Meeting the hypotheses of `C64_arguments`. -/
example : Means world 10 (pieces seps "a $M @f".toList) ["a".toList, "x".toList, "B".toList, "C".toList, "y".toList, "p".toList, "q".toList, "B".toList, "C".toList] := by
  have o : ∀ c : Char, c ≠ '$' → c ≠ '@' → Ordinary [c] := fun c h1 h2 => ⟨by simpa using h1, by simpa using h2⟩
  have hL : ∀ k, Means world k (pieces seps "B;C".toList) ["B".toList, "C".toList] := fun k => by
    rw [show pieces seps "B;C".toList = ["B".toList, "C".toList] by decide +kernel]
    exact .word (o _ (by decide) (by decide)) (.word (o _ (by decide) (by decide)) (.nil _))
  have fL : Fit seps "B;C".toList := by unfold Fit; decide +kernel
  rw [show pieces seps "a $M @f".toList = ["a".toList, "$M".toList, "@f".toList] by decide +kernel]
  refine .word (o _ (by decide) (by decide)) (.list (a := ["x".toList, "B".toList, "C".toList, "y".toList]) (t := "x $L y".toList) (by decide +kernel)
    (by unfold Fit; decide +kernel) ?_ (.file (a := ["p".toList, "q".toList, "B".toList, "C".toList]) (b := []) (t := "p\nq $L\n".toList) (by decide +kernel)
    (by unfold Fit; decide +kernel) ?_ (.nil _)))
  · rw [show pieces world.sp "x $L y".toList = ["x".toList, "$L".toList, "y".toList] by decide +kernel]
    exact .word (o _ (by decide) (by decide)) (.list (a := ["B".toList, "C".toList]) (by decide +kernel) fL (hL _) (.word (o _ (by decide) (by decide)) (.nil _)))
  · rw [show pieces world.sp "p\nq $L\n".toList = ["p".toList, "q".toList, "$L".toList] by decide +kernel]
    exact .word (o _ (by decide) (by decide)) (.word (o _ (by decide) (by decide)) (.list (a := ["B".toList, "C".toList]) (b := []) (by decide +kernel) fL (hL _) (.nil _)))

/-- Lists `L` and `A`, which contains itself. -/
def world2 : World where
  sp := seps
  look := fun x => if x = "L".toList then some "B;C".toList else if x = "A".toList then some "$A B".toList else none
  file := fun _ => none

theorem world2_lists (Q : Text → Prop) (h1 : Q "B;C".toList) (h2 : Q "$A B".toList) : ∀ x t, world2.look x = some t → Q t := by
  intro x t h
  simp only [world2] at h
  split at h
  · simp at h; rw [← h]; exact h1
  · split at h
    · simp at h; rw [← h]; exact h2
    · simp at h

/-- Meeting the hypotheses of `C64_exact`, `C64_unknown` and `C64_replaced`. -/
example : (∀ x t, world2.look x = some t → Fit world2.sp t) ∧ (∀ x t, world2.look x = some t → ∀ w ∈ pieces world2.sp t, Short w) ∧
    Fit world2.sp "a $L $NO $A".toList ∧ (∀ w ∈ pieces world2.sp "a $L $NO $A".toList, Short w) ∧ '$' :: "NO".toList ∈ pieces world2.sp "a $L $NO $A".toList ∧
    world2.look "NO".toList = none := by
  refine ⟨world2_lists _ ?_ ?_, world2_lists _ ?_ ?_, ?_, ?_, by decide +kernel, by decide +kernel⟩
  · unfold Fit; decide +kernel
  · unfold Fit; decide +kernel
  · unfold Short; decide +kernel
  · unfold Short; decide +kernel
  · unfold Fit; decide +kernel
  · unfold Short; decide +kernel

/-- An empty text between quotes is no argument, and what is behind it is read up to the next quote. -/
theorem C64_empty_quotes_counterexample : init world "\"\" b c".toList = .ok (some [" b c".toList]) := by decide +kernel

/-- A quote inside a word is lost. -/
theorem C64_inner_quote_counterexample : init world "a\"b".toList = .ok (some ["ab".toList]) := by decide +kernel

/-- Quotes do not protect the name of a list. -/
theorem C64_quoted_list_counterexample : init world "\"$L\" d".toList = .ok (some ["B".toList, "C".toList, "d".toList]) := by decide +kernel

/-- Quotes in a list do not keep words together. -/
theorem C64_list_quotes_counterexample : init world "\"a b\" c".toList = .ok (some ["a b".toList, "c".toList]) ∧
    init world "$Q".toList = .ok (some ["a".toList, "b".toList, "c".toList]) := by decide +kernel

/-- A list that contains itself is accepted: ten copies of what is behind its name. -/
theorem C64_cycle_counterexample : init world "$A".toList = .ok (some (List.replicate 10 "B".toList)) := by decide +kernel

/-- A file that does not exist is accepted: with what is behind it when it is the first word, alone otherwise. -/
theorem C64_missing_file_counterexample : init world "@no a b".toList = .ok (some []) ∧ init world "a @no b".toList = .ok (some ["a".toList, "b".toList]) := by
  decide +kernel

/-- Words are cut after 128 characters. -/
theorem C64_long_word_counterexample : init world (List.replicate 130 'a') = .ok (some [List.replicate 128 'a']) := by decide +kernel

/-- A text of 128 characters between quotes does not end at the quote. -/
theorem C64_long_quoted_counterexample : init world ('"' :: (List.replicate 128 'a' ++ "\" b".toList)) = .ok (some [List.replicate 128 'a']) := by decide +kernel

/-- The message for a list or a file that does not exist and has a long name does not fit its array. -/
theorem C64_message_counterexample : init world ('$' :: List.replicate 89 'a') = .ub ∧ init world ('@' :: List.replicate 97 'a') = .ub := by decide +kernel

end Iode.Args
