import Verif.Spec.RepFn
import Verif.Lemmas.PrintfText
import Mathlib.Data.List.SplitOn
import Mathlib.Data.List.TakeWhile
import Mathlib.Tactic.Tauto

/-! # Lemmas on the functions of reports: places of texts, replacement, words -/
namespace Iode.RepFn

open Iode.Expand (words)

theorem bind_ok {α β : Type} (a : α) (f : α → Res β) : (Res.ok a).bind f = f a := rfl

/-! ## Places -/

/-- `s` is at place `i` of `t`. -/
def Occ (s t : Text) (i : Nat) : Prop := s <+: t.drop i

theorem occ_append {s a b : Text} : Occ s (a ++ s ++ b) a.length := by
  rw [Occ, List.append_assoc, List.drop_left]
  exact List.prefix_append _ _

theorem occ_split {s t : Text} {i : Nat} (hi : i ≤ t.length) (h : Occ s t i) : t = t.take i ++ s ++ t.drop (i + s.length) := by
  obtain ⟨b, hb⟩ := h
  have h1 : t.drop (i + s.length) = b := by rw [← List.drop_drop, ← hb, List.drop_left]
  rw [h1, List.append_assoc, hb, List.take_append_drop]

theorem occ_infix {s t : Text} : s <:+: t ↔ ∃ i, i ≤ t.length ∧ Occ s t i := by
  constructor
  · rintro ⟨a, b, rfl⟩
    exact ⟨a.length, by simp, occ_append⟩
  · rintro ⟨i, hi, h⟩
    exact ⟨_, _, (occ_split hi h).symm⟩

theorem occ_len {s t : Text} {i : Nat} (hs : s ≠ []) (h : Occ s t i) : i + s.length ≤ t.length := by
  have := List.IsPrefix.length_le h
  rw [List.length_drop] at this
  have : 0 < s.length := List.length_pos_of_ne_nil hs
  omega

theorem occ_head {c : Char} {s t : Text} {i : Nat} (h : Occ (c :: s) t i) : t[i]? = some c := by
  obtain ⟨b, hb⟩ := h
  have : (t.drop i)[0]? = some c := by rw [← hb]; rfl
  simpa using this

/-- The first place. -/
theorem firstAt_iff {s t : Text} {i : Nat} (hs : s ≠ []) (h : Occ s t i) (hmin : ∀ j < i, ¬ Occ s t j) :
    FirstAt s t (t.take i) (t.drop (i + s.length)) := by
  have hl := occ_len hs h
  refine ⟨occ_split (by omega) h, fun a' b' e => ?_⟩
  rw [List.length_take]
  by_contra hlt
  refine hmin a'.length (by omega) ?_
  rw [e]
  exact occ_append

theorem upos_none {c : Char} : ∀ {t : Text}, upos c t = none ↔ c ∉ t
  | [] => by simp [upos]
  | d :: r => by
    rw [upos]
    by_cases h : d = c
    · simp [h]
    · rw [if_neg h, Option.map_eq_none_iff, upos_none]
      simp [Ne.symm h]

theorem upos_some {c : Char} : ∀ {t : Text} {p : Nat}, upos c t = some p → t[p]? = some c ∧ ∀ q < p, t[q]? ≠ some c
  | [], p => by simp [upos]
  | d :: r, p => by
    rw [upos]
    by_cases h : d = c
    · simp only [if_pos h, Option.some.injEq]
      rintro rfl
      exact ⟨by simp [h], fun q hq => by omega⟩
    · simp only [if_neg h, Option.map_eq_some_iff]
      rintro ⟨p, hp, rfl⟩
      obtain ⟨h1, h2⟩ := upos_some hp
      refine ⟨by simpa using h1, fun q hq => ?_⟩
      cases q with
      | zero => simpa using h
      | succ q => simpa using h2 q (by omega)

theorem uindexLoop_spec {str sstr : Text} (hs : sstr ≠ []) : ∀ (f i : Nat), str.length < f + i → i ≤ str.length → (∀ j < i, ¬ Occ sstr str j) →
    (uindexLoop str sstr f i = .ok none ∧ ∀ j, ¬ Occ sstr str j) ∨
    ∃ p, uindexLoop str sstr f i = .ok (some p) ∧ Occ sstr str p ∧ ∀ j < p, ¬ Occ sstr str j
  | 0, i, hf, hil, hi => by omega
  | f + 1, i, hf, hil, hi => by
    obtain ⟨c, s, rfl⟩ := List.exists_cons_of_ne_nil hs
    rw [uindexLoop]
    cases hu : upos c (str.drop i) with
    | none =>
      refine .inl ⟨rfl, fun j hj => ?_⟩
      rw [upos_none] at hu
      by_cases hji : j < i
      · exact hi j hji hj
      · apply hu
        have := occ_head hj
        exact List.mem_of_getElem? (i := j - i) (by rw [List.getElem?_drop, show i + (j - i) = j from by omega]; exact this)
    | some pos =>
      obtain ⟨h1, h2⟩ := upos_some hu
      have hbefore : ∀ j < i + pos, ¬ Occ (c :: s) str j := by
        intro j hj ho
        by_cases hji : j < i
        · exact hi j hji ho
        · refine h2 (j - i) (by omega) ?_
          rw [List.getElem?_drop, show i + (j - i) = j from by omega]
          exact occ_head ho
      simp only
      by_cases hlen : pos + i + (c :: s).length > str.length
      · rw [if_pos hlen]
        refine .inl ⟨rfl, fun j hj => ?_⟩
        by_cases hji : j < i + pos
        · exact hbefore j hji hj
        · have := occ_len hs hj
          omega
      · rw [if_neg hlen]
        by_cases he : (str.drop (pos + i)).take (c :: s).length = c :: s
        · rw [if_pos he]
          refine .inr ⟨i + pos, rfl, ?_, hbefore⟩
          rw [Nat.add_comm, Occ, ← he]
          exact List.take_prefix _ _
        · rw [if_neg he]
          refine uindexLoop_spec hs f (i + (pos + 1)) (by omega) (by simp only [List.length_cons] at hlen; omega) fun j hj ho => ?_
          by_cases hji : j < i + pos
          · exact hbefore j hji ho
          · obtain rfl : j = pos + i := by omega
            obtain ⟨b, hb⟩ := ho
            apply he
            rw [← hb, List.take_left]

/-- `U_index` finds the first place. -/
theorem uindex_spec {str sstr : Text} (hs : sstr ≠ []) : (uindex str sstr = .ok none ∧ ¬ sstr <:+: str) ∨
    ∃ p, uindex str sstr = .ok (some p) ∧ p + sstr.length ≤ str.length ∧ FirstAt sstr str (str.take p) (str.drop (p + sstr.length)) := by
  unfold uindex
  by_cases hl : str.length < sstr.length
  · rw [if_pos hl]
    refine .inl ⟨rfl, fun h => ?_⟩
    have := h.length_le
    omega
  · rw [if_neg hl]
    rcases uindexLoop_spec (str := str) hs (str.length + 1) 0 (by omega) (by omega) (by simp) with ⟨h, h'⟩ | ⟨p, h, h', h''⟩
    · refine .inl ⟨h, fun hi => ?_⟩
      obtain ⟨i, _, ho⟩ := occ_infix.mp hi
      exact h' i ho
    · exact .inr ⟨p, h, occ_len hs h', firstAt_iff hs h' h''⟩

theorem uindex_nil (str : Text) : uindex str [] = .ok none := by simp [uindex, uindexLoop]

theorem firstAt_unique {s t a b a' b' : Text} (h : FirstAt s t a b) (h' : FirstAt s t a' b') : a = a' ∧ b = b' := by
  have hl : a.length = a'.length := Nat.le_antisymm (h.2 _ _ h'.1) (h'.2 _ _ h.1)
  have e := h.1.symm.trans h'.1
  rw [List.append_assoc, List.append_assoc] at e
  obtain ⟨h1, h2⟩ := List.append_inj e hl
  exact ⟨h1, List.append_cancel_left h2⟩

theorem firstAt_infix {s t a b : Text} (h : FirstAt s t a b) : s <:+: t := ⟨a, b, h.1.symm⟩

/-- There is one result. -/
theorem replaced_unique {s r t out out' : Text} (h : Replaced s r t out) (h' : Replaced s r t out') : out = out' := by
  induction h generalizing out' with
  | stop h0 =>
    cases h' with
    | stop _ => rfl
    | step h1 _ => exact absurd (firstAt_infix h1) h0
  | step h1 _ ih =>
    cases h' with
    | stop h0 => exact absurd (firstAt_infix h1) h0
    | step h1' h2' =>
      obtain ⟨rfl, rfl⟩ := firstAt_unique h1 h1'
      rw [ih h2']

/-- And it exists. -/
theorem replaced_exists {s : Text} (r : Text) (hs : s ≠ []) : ∀ (n : Nat) (t : Text), t.length ≤ n → ∃ out, Replaced s r t out
  | n, t, hn => by
    rcases uindex_spec (str := t) hs with ⟨_, h⟩ | ⟨p, _, hp, h⟩
    · exact ⟨t, .stop h⟩
    · have hpos : 0 < s.length := List.length_pos_of_ne_nil hs
      match n with
      | 0 => omega
      | n + 1 =>
        obtain ⟨out, ho⟩ := replaced_exists r hs n (t.drop (p + s.length)) (by rw [List.length_drop]; omega)
        exact ⟨_, .step h ho⟩

theorem replaced_len {s r t out : Text} (hl : s.length ≤ r.length) (h : Replaced s r t out) : t.length ≤ out.length := by
  induction h with
  | stop _ => exact Nat.le_refl _
  | step h1 _ ih =>
    have := congrArg List.length h1.1
    simp only [List.length_append] at this ⊢
    omega

/-- One character more in front of a text. -/
theorem replaced_cons {s r t out : Text} {c : Char} (hp : ¬ s <+: c :: t) (h : Replaced s r t out) : Replaced s r (c :: t) (c :: out) := by
  cases h with
  | stop h0 =>
    refine .stop fun h => ?_
    rcases List.infix_cons_iff.mp h with h | h
    · exact hp h
    · exact h0 h
  | @step _ a b out h1 h2 =>
    refine .step (a := c :: a) (b := b) ⟨by rw [h1.1]; simp, fun a' b' e => ?_⟩ h2
    cases a' with
    | nil => exact absurd ⟨b', by simpa using e.symm⟩ hp
    | cons d a' =>
      simp only [List.cons_append, List.cons.injEq] at e
      have := h1.2 a' b' e.2
      simpa using this

theorem take_prefix_iff {s t : Text} : t.take s.length = s ↔ s <+: t := by
  constructor
  · intro h; rw [← h]; exact List.take_prefix _ _
  · rintro ⟨b, rfl⟩; exact List.take_left

theorem shrink_spec {s r : Text} (hs : s ≠ []) : ∀ (f : Nat) (t : Text), t.length < f → ∃ out, shrink s r f t = .ok out ∧ Replaced s r t out
  | 0, t, hf => by omega
  | f + 1, t, hf => by
    rw [shrink.eq_def]
    simp only
    by_cases h : t.take s.length = s
    · rw [if_pos h]
      obtain ⟨b, rfl⟩ := take_prefix_iff.mp h
      have hpos : 0 < s.length := List.length_pos_of_ne_nil hs
      obtain ⟨out, h1, h2⟩ := shrink_spec (r := r) hs f b (by simp only [List.length_append] at hf; omega)
      rw [List.drop_left, h1]
      refine ⟨r ++ out, rfl, ?_⟩
      have := Replaced.step (s := s) (r := r) (t := s ++ b) (a := []) (b := b) ⟨by simp, by simp⟩ h2
      simpa using this
    · rw [if_neg h]
      cases t with
      | nil =>
        refine ⟨[], rfl, .stop fun h => hs ?_⟩
        simpa using h
      | cons c t =>
        obtain ⟨out, h1, h2⟩ := shrink_spec (r := r) hs f t (by simp only [List.length_cons] at hf; omega)
        refine ⟨c :: out, by simp only [h1, bind_ok], replaced_cons (fun hp => h (take_prefix_iff.mpr hp)) h2⟩

theorem uindex_stop {s t : Text} (hs : s ≠ []) (h : ¬ s <:+: t) : uindex t s = .ok none := by
  rcases uindex_spec (str := t) hs with ⟨h', _⟩ | ⟨p, _, _, h'⟩
  · exact h'
  · exact absurd (firstAt_infix h') h

theorem uindex_step {s t a b : Text} (hs : s ≠ []) (h : FirstAt s t a b) : uindex t s = .ok (some a.length) := by
  rcases uindex_spec (str := t) hs with ⟨_, h'⟩ | ⟨p, h1, h2, h'⟩
  · exact absurd (firstAt_infix h) h'
  · obtain ⟨rfl, _⟩ := firstAt_unique h h'
    rw [h1, List.length_take]
    congr 2
    omega

theorem replaceLen_spec {s r t out : Text} (hs : s ≠ []) (h : Replaced s r t out) : ∀ (pre : Text) (f : Nat) (add : Int), t.length < f →
    replaceLen (pre ++ t) s r f pre.length add = .ok (add + ((out.length : Int) - t.length)) := by
  induction h with
  | stop h0 =>
    intro pre f add hf
    cases f with
    | zero => omega
    | succ f =>
      rw [replaceLen, List.drop_left, uindex_stop hs h0, bind_ok]
      simp
  | @step t a b out h1 _ ih =>
    intro pre f add hf
    have hpos : 0 < s.length := List.length_pos_of_ne_nil hs
    cases f with
    | zero => omega
    | succ f =>
      rw [replaceLen, List.drop_left, uindex_step hs h1, bind_ok]
      simp only
      have e := ih (pre ++ a ++ s) f (add + ((r.length : Int) - s.length)) (by
        have := congrArg List.length h1.1
        simp only [List.length_append] at this; omega)
      have e2 : pre ++ a ++ s ++ b = pre ++ t := by rw [h1.1]; simp
      rw [e2] at e
      simp only [List.length_append] at e
      rw [e]
      have := congrArg List.length h1.1
      simp only [List.length_append] at this ⊢
      congr 1
      omega

theorem grow_spec {s r t out : Text} (hs : s ≠ []) (hl : s.length ≤ r.length) {cap : Int} (h : Replaced s r t out) : ∀ (pre : Text) (f : Nat), t.length < f →
    ((pre ++ out).length : Int) ≤ cap → grow s r cap f (pre ++ t) pre.length = .ok (pre ++ out) := by
  induction h with
  | stop h0 =>
    intro pre f hf _
    cases f with
    | zero => omega
    | succ f => rw [grow, List.drop_left, uindex_stop hs h0, bind_ok]
  | @step t a b out h1 h2 ih =>
    intro pre f hf hcap
    have hpos : 0 < s.length := List.length_pos_of_ne_nil hs
    cases f with
    | zero => omega
    | succ f =>
      have hlen := congrArg List.length h1.1
      simp only [List.length_append] at hlen
      rw [grow, List.drop_left, uindex_step hs h1, bind_ok]
      simp only
      have e1 : (pre ++ t).take (pre.length + a.length) = pre ++ a := by
        rw [h1.1, List.append_assoc, ← List.append_assoc pre, List.take_left' (by simp)]
      have e2 : (pre ++ t).drop (pre.length + a.length + s.length) = b := by
        rw [h1.1, ← List.append_assoc, ← List.append_assoc, List.drop_left' (by simp only [List.length_append])]
      rw [e1, e2]
      have hb := replaced_len hl h2
      simp only [List.length_append] at hcap
      rw [if_neg (by simp only [List.length_append]; omega)]
      have e := ih (pre ++ a ++ r) f (by omega) (by simp only [List.length_append]; omega)
      simp only [List.length_append] at e
      rw [e]
      simp

theorem areplace_spec {s : Text} (hs : s ≠ []) (t r : Text) : ∃ out, areplace t s r = .ok out ∧ Replaced s r t out := by
  obtain ⟨out, ho⟩ := replaced_exists r hs t.length t (Nat.le_refl _)
  refine ⟨out, ?_, ho⟩
  unfold areplace
  have hlen := replaceLen_spec hs ho [] (t.length + 1) t.length (by omega)
  rw [List.nil_append, List.length_nil] at hlen
  rw [hlen, bind_ok]
  by_cases h : s.length > r.length
  · rw [if_pos h]
    obtain ⟨out', h1, h2⟩ := shrink_spec (r := r) hs (t.length + 1) t (by omega)
    rw [h1, replaced_unique ho h2]
  · rw [if_neg h]
    have := grow_spec hs (by omega) (cap := max (↑t.length + (↑out.length - ↑t.length)) ↑t.length) ho [] (t.length + 1) (by omega) (by
      rw [List.nil_append]
      exact Int.le_trans (by omega) (Int.le_max_left _ _))
    simpa using this

theorem areplace_nil (t r : Text) : areplace t [] r = .ok t := by
  unfold areplace
  rw [replaceLen, uindex_nil, bind_ok]
  simp only [bind_ok]
  rw [if_neg (by simp), grow, uindex_nil, bind_ok]

/-! ## Words -/

theorem words_nil (seps : List Char) : words seps [] = [] := by simp [words]

theorem words_sep {seps : List Char} {c : Char} (hc : c ∈ seps) (t : Text) : words seps (c :: t) = words seps t := by
  unfold words
  rw [List.splitOnP_cons_eq_if_modifyHead]
  simp [hc]

theorem words_last {seps : List Char} {w : Text} (hw : w ≠ []) (h : ∀ c ∈ w, c ∉ seps) : words seps w = [w] := by
  unfold words
  rw [List.splitOnP_eq_singleton (by simpa using h)]
  simp [hw]

theorem words_word {seps : List Char} {w : Text} (hw : w ≠ []) (h : ∀ c ∈ w, c ∉ seps) {c : Char} (hc : c ∈ seps) (t : Text) :
    words seps (w ++ c :: t) = w :: words seps t := by
  unfold words
  rw [List.splitOnP_append_cons_of_forall_mem (by simpa using h) _ (by simpa using hc)]
  simp [hw]

theorem words_drop {seps : List Char} : ∀ (t : Text), words seps (t.dropWhile (· ∈ seps)) = words seps t
  | [] => rfl
  | c :: t => by
    by_cases h : c ∈ seps
    · rw [List.dropWhile_cons_of_pos (by simpa using h), words_drop t, words_sep h]
    · rw [List.dropWhile_cons_of_neg (by simpa using h)]

theorem vtoms_words (seps : List Char) : ∀ (f : Nat) (t : Text), t.length < f → vtoms seps f t = .ok (words seps t)
  | 0, t, hf => by omega
  | f + 1, t, hf => by
    rw [vtoms, ← words_drop t]
    have hlen : (t.dropWhile (· ∈ seps)).length ≤ t.length := (List.dropWhile_sublist _).length_le
    cases hd : t.dropWhile (· ∈ seps) with
    | nil => simp [words_nil]
    | cons c r =>
      have hc : c ∉ seps := by
        have := List.head_dropWhile_not (p := (· ∈ seps)) (l := t) (by rw [hd]; simp)
        simp only [hd, List.head_cons] at this
        simpa using this
      simp only
      have hsplit : c :: r = (c :: r).takeWhile (· ∉ seps) ++ (c :: r).dropWhile (· ∉ seps) := (List.takeWhile_append_dropWhile).symm
      have hw : ∀ d ∈ (c :: r).takeWhile (· ∉ seps), d ∉ seps := fun d hm => by simpa using List.mem_takeWhile_imp hm
      have hne : (c :: r).takeWhile (· ∉ seps) ≠ [] := by rw [List.takeWhile_cons_of_pos (by simpa using hc)]; simp
      cases hd2 : (c :: r).dropWhile (· ∉ seps) with
      | nil =>
        simp only
        rw [hd2, List.append_nil] at hsplit
        rw [← hsplit] at hw hne ⊢
        rw [words_last hne hw]
      | cons d rest =>
        have hdm : d ∈ seps := by
          have := List.head_dropWhile_not (p := (· ∉ seps)) (l := c :: r) (by rw [hd2]; simp)
          simp only [hd2, List.head_cons] at this
          simpa using this
        simp only
        rw [hd2] at hsplit
        rw [vtoms_words seps f rest (by
          have := congrArg List.length hsplit
          rw [hd] at hlen
          simp only [List.length_append, List.length_cons] at this hlen
          omega), bind_ok]
        conv => rhs; rw [hsplit, words_word hne hw hdm]

theorem words_sep_append {seps : List Char} {s : Char} (hs : s ∈ seps) (b : Text) : ∀ (n : Nat) (a : Text), a.length ≤ n →
    words seps (a ++ s :: b) = words seps a ++ words seps b
  | n, a, hn => by
    by_cases ha : a = []
    · subst ha; simp [words_sep hs, words_nil]
    · by_cases hall : ∀ c ∈ a, c ∉ seps
      · rw [words_word ha hall hs, words_last ha hall]; rfl
      · have hsplit : a = a.takeWhile (· ∉ seps) ++ a.dropWhile (· ∉ seps) := (List.takeWhile_append_dropWhile).symm
        cases hd : a.dropWhile (· ∉ seps) with
        | nil =>
          rw [List.dropWhile_eq_nil_iff] at hd
          exact absurd (fun c hc => by simpa using hd c hc) hall
        | cons c r =>
          have hc : c ∈ seps := by
            have := List.head_dropWhile_not (p := (· ∉ seps)) (l := a) (by rw [hd]; simp)
            simp only [hd, List.head_cons] at this
            simpa using this
          have hw : ∀ d ∈ a.takeWhile (· ∉ seps), d ∉ seps := fun d hm => by simpa using List.mem_takeWhile_imp hm
          rw [hd] at hsplit
          generalize a.takeWhile (· ∉ seps) = w at hsplit hw
          have hr : r.length < n := by
            have := congrArg List.length hsplit
            simp only [List.length_append, List.length_cons] at this; omega
          match n with
          | 0 => omega
          | n + 1 =>
            have ih := words_sep_append hs b n r (by omega)
            rw [hsplit, List.append_assoc, List.cons_append]
            by_cases hw0 : w = []
            · subst hw0; simp only [List.nil_append, words_sep hc, ih]
            · rw [words_word hw0 hw hc, words_word hw0 hw hc, ih]; rfl

theorem mtov_words {seps : List Char} {s : Char} (hs : s ∈ seps) : ∀ {ws : List Text}, words seps (mtov s ws) = ws.flatMap (words seps)
  | [] => by simp [mtov, words_nil]
  | [w] => by simp [mtov]
  | w :: v :: ws => by
    rw [mtov, List.flatMap_cons, ← mtov_words hs (ws := v :: ws), words_sep_append hs _ _ _ (Nat.le_refl _)]
    simp

/-- Elements read back. -/
theorem words_flat {seps : List Char} : ∀ {ws : List Text}, (∀ w ∈ ws, w ≠ [] ∧ ∀ c ∈ w, c ∉ seps) → ws.flatMap (words seps) = ws
  | [], _ => rfl
  | w :: ws, h => by
    rw [List.flatMap_cons, words_last (h w (by simp)).1 (h w (by simp)).2, words_flat fun v hv => h v (by simp [hv])]
    rfl

theorem words_good {seps : List Char} {t : Text} : ∀ w ∈ words seps t, w ≠ [] ∧ ∀ c ∈ w, c ∉ seps := by
  have : ∀ (n : Nat) (t : Text), t.length ≤ n → ∀ w ∈ words seps t, w ≠ [] ∧ ∀ c ∈ w, c ∉ seps := by
    intro n
    induction n with
    | zero =>
      intro t ht
      have : t = [] := List.length_eq_zero_iff.mp (by omega)
      subst this
      simp [words_nil]
    | succ n ih =>
      intro t ht
      rw [← words_drop t]
      have hlen : (t.dropWhile (· ∈ seps)).length ≤ t.length := (List.dropWhile_sublist _).length_le
      cases hd : t.dropWhile (· ∈ seps) with
      | nil => simp [words_nil]
      | cons c r =>
        have hc : c ∉ seps := by
          have := List.head_dropWhile_not (p := (· ∈ seps)) (l := t) (by rw [hd]; simp)
          simp only [hd, List.head_cons] at this
          simpa using this
        have hsplit : c :: r = (c :: r).takeWhile (· ∉ seps) ++ (c :: r).dropWhile (· ∉ seps) := (List.takeWhile_append_dropWhile).symm
        have hw : ∀ d ∈ (c :: r).takeWhile (· ∉ seps), d ∉ seps := fun d hm => by simpa using List.mem_takeWhile_imp hm
        have hne : (c :: r).takeWhile (· ∉ seps) ≠ [] := by rw [List.takeWhile_cons_of_pos (by simpa using hc)]; simp
        generalize (c :: r).takeWhile (· ∉ seps) = w at hsplit hw hne
        cases hd2 : (c :: r).dropWhile (· ∉ seps) with
        | nil =>
          rw [hd2, List.append_nil] at hsplit
          rw [hsplit, words_last hne hw]
          simpa using ⟨hne, hw⟩
        | cons d rest =>
          have hdm : d ∈ seps := by
            have := List.head_dropWhile_not (p := (· ∉ seps)) (l := c :: r) (by rw [hd2]; simp)
            simp only [hd2, List.head_cons] at this
            simpa using this
          rw [hd2] at hsplit
          rw [hsplit, words_word hne hw hdm]
          intro v hv
          rcases List.mem_cons.mp hv with rfl | hv
          · exact ⟨hne, hw⟩
          · refine ih rest ?_ v hv
            have := congrArg List.length hsplit
            rw [hd] at hlen
            simp only [List.length_append, List.length_cons] at this hlen
            omega
  exact this t.length t (Nat.le_refl _)

/-! ## Formats -/

theorem fmtLoop_cons (c : Char) (f ds : Text) : fmtLoop (c :: f) ds =
    if c = '9' ∨ c = 'x' ∨ c = 'X' then ds.headD ' ' :: fmtLoop f ds.tail
    else if c = '0' then (if ds.headD '0' = ' ' then '0' else ds.headD '0') :: fmtLoop f ds.tail
    else c :: fmtLoop f ds := by
  cases ds <;> rw [fmtLoop.eq_def] <;> simp

theorem fmtLoop_length : ∀ (f ds : Text), (fmtLoop f ds).length = f.length
  | [], ds => by simp [fmtLoop]
  | c :: f, ds => by
    rw [fmtLoop_cons]
    split
    · simp [fmtLoop_length f]
    · split <;> simp [fmtLoop_length f]

theorem fmtLoop_get : ∀ (f ds : Text), ' ' ∉ ds → ∀ i c, f[i]? = some c →
    (fmtLoop f ds)[i]? = if Code c then
        some ((ds[(f.take i).countP fun d => decide (Code d)]?).getD (if c = '0' then '0' else ' '))
      else some c
  | [], ds, _, i, c, h => by simp at h
  | d :: f, ds, hd, i, c, h => by
    have hc9 : (d = '9' ∨ d = 'x' ∨ d = 'X') → Code d := by unfold Code; tauto
    have hc0 : d = '0' → Code d := by unfold Code; tauto
    have hno : ¬ (d = '9' ∨ d = 'x' ∨ d = 'X') → d ≠ '0' → ¬ Code d := by unfold Code; tauto
    have h90 : (d = '9' ∨ d = 'x' ∨ d = 'X') → d ≠ '0' := by rintro (rfl | rfl | rfl) <;> decide
    cases i with
    | zero =>
      simp at h
      subst h
      rw [fmtLoop_cons]
      by_cases h9 : d = '9' ∨ d = 'x' ∨ d = 'X'
      · rw [if_pos h9, if_pos (hc9 h9), if_neg (h90 h9)]
        cases ds <;> simp
      · rw [if_neg h9]
        by_cases h0 : d = '0'
        · rw [if_pos h0, if_pos (hc0 h0), if_pos h0]
          cases ds with
          | nil => simp
          | cons x ds =>
            have : x ≠ ' ' := fun e => hd (by simp [e])
            simp [this]
        · rw [if_neg h0, if_neg (hno h9 h0)]
          simp
    | succ i =>
      simp at h
      have ih1 := fmtLoop_get f ds.tail (fun h => hd (List.mem_of_mem_tail h)) i c h
      have ih2 := fmtLoop_get f ds hd i c h
      rw [fmtLoop_cons]
      by_cases h9 : d = '9' ∨ d = 'x' ∨ d = 'X'
      · rw [if_pos h9]
        cases ds with
        | nil => simpa [hc9 h9] using ih2
        | cons x ds => simpa [hc9 h9] using ih1
      · rw [if_neg h9]
        by_cases h0 : d = '0'
        · rw [if_pos h0]
          cases ds with
          | nil => simpa [hc0 h0] using ih2
          | cons x ds => simpa [hc0 h0] using ih1
        · rw [if_neg h0]
          simpa [hno h9 h0] using ih2

theorem formatted_loop (f ds : Text) (hd : ' ' ∉ ds) : Formatted f ds (fmtLoop f.reverse ds.reverse).reverse := by
  refine ⟨by simp [fmtLoop_length], fun i c h => ?_⟩
  have hi : i < f.length := (List.getElem?_eq_some_iff.mp h).1
  have h' : f.reverse[f.length - 1 - i]? = some c := by
    rw [List.getElem?_reverse (by omega), show f.length - 1 - (f.length - 1 - i) = i from by omega, h]
  have := fmtLoop_get f.reverse ds.reverse (by simpa using hd) _ c h'
  rw [List.getElem?_reverse (by rw [fmtLoop_length]; simpa using hi), fmtLoop_length, List.length_reverse, this, List.take_reverse,
    show f.length - (f.length - 1 - i) = i + 1 from by omega, List.countP_reverse]

/-! ## Names in equations -/

theorem idxOf_append_left {l m : List Name} {x : Name} (h : x ∈ l) : (l ++ m).idxOf x = l.idxOf x := List.idxOf_append_of_mem h

theorem listNames_firsts (scal : Bool) : ∀ (xs l tbl : List Name), LstCalc.Firsts l (fun w => checkName .scalars w = scal) tbl →
    LstCalc.Firsts (l ++ xs) (fun w => checkName .scalars w = scal) (listNames scal xs tbl)
  | [], l, tbl, h => by simpa [listNames] using h
  | x :: xs, l, tbl, h => by
    have go : ∀ tbl', LstCalc.Firsts (l ++ [x]) (fun w => checkName .scalars w = scal) tbl' →
        LstCalc.Firsts (l ++ x :: xs) (fun w => checkName .scalars w = scal) (listNames scal xs tbl') := fun tbl' h' => by
      have := listNames_firsts scal xs (l ++ [x]) tbl' h'
      simpa using this
    have hp : tbl.Pairwise (fun a b => (l ++ [x]).idxOf a < (l ++ [x]).idxOf b) := by
      refine h.1.imp_of_mem fun {a b} ha hb hab => ?_
      rw [idxOf_append_left ((h.2 a).mp ha).1, idxOf_append_left ((h.2 b).mp hb).1]
      exact hab
    rw [listNames]
    by_cases hs : checkName .scalars x = scal
    · rw [if_neg (by simpa using hs)]
      by_cases hx : x ∈ tbl
      · rw [if_pos hx]
        refine go _ ⟨hp, fun w => ?_⟩
        rw [h.2 w, List.mem_append, List.mem_singleton]
        constructor
        · exact fun h => ⟨.inl h.1, h.2⟩
        · rintro ⟨h1 | rfl, h2⟩
          · exact ⟨h1, h2⟩
          · exact (h.2 _).mp hx
      · rw [if_neg hx]
        have hxl : x ∉ l := fun hl => hx ((h.2 x).mpr ⟨hl, hs⟩)
        refine go _ ⟨?_, fun w => ?_⟩
        · rw [List.pairwise_append]
          refine ⟨hp, by simp, fun a ha b hb => ?_⟩
          rw [List.mem_singleton] at hb
          subst hb
          have hal := ((h.2 a).mp ha).1
          rw [idxOf_append_left hal, List.idxOf_append_of_notMem hxl]
          have := List.idxOf_lt_length_of_mem hal
          omega
        · rw [List.mem_append, List.mem_append, List.mem_singleton, h.2 w]
          constructor
          · rintro (h | rfl)
            · exact ⟨.inl h.1, h.2⟩
            · exact ⟨.inr rfl, hs⟩
          · rintro ⟨h1 | rfl, h2⟩
            · exact .inl ⟨h1, h2⟩
            · exact .inr rfl
    · rw [if_pos hs]
      refine go _ ⟨hp, fun w => ?_⟩
      rw [h.2 w, List.mem_append, List.mem_singleton]
      constructor
      · exact fun h => ⟨.inl h.1, h.2⟩
      · rintro ⟨h1 | rfl, h2⟩
        · exact ⟨h1, h2⟩
        · exact absurd h2 hs

theorem listEqs_firsts (eqs : Name → Option (List Name)) (scal : Bool) : ∀ (args : List Text) (l tbl : List Name),
    LstCalc.Firsts l (fun w => checkName .scalars w = scal) tbl →
    LstCalc.Firsts (l ++ args.flatMap fun a => (eqs (toKey .equations a)).getD []) (fun w => checkName .scalars w = scal) (listEqs eqs scal args tbl)
  | [], l, tbl, h => by simpa [listEqs] using h
  | a :: as, l, tbl, h => by
    rw [listEqs]
    cases he : eqs (toKey .equations a) with
    | none => simpa [he] using listEqs_firsts eqs scal as l tbl h
    | some xs => simpa [he] using listEqs_firsts eqs scal as _ _ (listNames_firsts scal xs l tbl h)

end Iode.RepFn
