import Verif.Spec.Expand
import Verif.Lemmas.Text
import Mathlib.Tactic.Tauto
import Mathlib.Data.List.TakeWhile

/-!
# C62: a line of a report is expanded piece by piece
-/
namespace Iode.Expand

variable {σ : Type}

/-! ## The fuel is enough -/

theorem extract_len {ch : Char} : ∀ {t w r : Text}, extract ch t = some (w, r) → w.length + r.length + 1 = t.length
  | [], _, _, h => by simp [extract] at h
  | c :: t, w, r, h => by
    unfold extract at h
    split at h
    · cases h; simp
    · cases hx : extract ch t with
      | none => rw [hx] at h; cases h
      | some p =>
        rw [hx] at h
        obtain ⟨w', r'⟩ := p
        simp only [Option.map_some, Option.some.injEq, Prod.mk.injEq] at h
        obtain ⟨rfl, rfl⟩ := h
        have := extract_len hx
        simp only [List.length_cons]; omega

theorem extractPar_len : ∀ {t w r : Text} {nb : Nat} {q : Bool}, extractPar nb q t = some (w, r) → w.length + r.length + 1 = t.length
  | [], _, _, _, _, h => by simp [extractPar] at h
  | c :: t, w, r, nb, q, h => by
    have key : ∀ {nb q}, (extractPar nb q t).map (fun p => (c :: p.1, p.2)) = some (w, r) → w.length + r.length + 1 = (c :: t).length := by
      intro nb q h
      cases hx : extractPar nb q t with
      | none => rw [hx] at h; cases h
      | some p =>
        rw [hx] at h
        obtain ⟨w', r'⟩ := p
        simp only [Option.map_some, Option.some.injEq, Prod.mk.injEq] at h
        obtain ⟨rfl, rfl⟩ := h
        have := extractPar_len hx
        simp only [List.length_cons]; omega
    unfold extractPar at h
    split at h
    · exact key h
    · split at h
      · exact key h
      · split at h
        · cases h; simp
        · split at h
          · exact key h
          · split at h
            · exact key h
            · split at h
              · cases h
              · exact key h

theorem flagOf_len (r : Text) : (flagOf r).2.length ≤ r.length := by
  cases r with
  | nil => simp [flagOf]
  | cons c r => simp only [flagOf]; split <;> simp

theorem fuel (E : Env σ) : ∀ (n m : Nat) (s : σ) (t : Text), t.length < n → t.length < m → expandN E n s t = expandN E m s t := by
  intro n
  induction n with
  | zero => intro m s t h; omega
  | succ n ih =>
    intro m s t hn hm
    cases m with
    | zero => omega
    | succ m =>
      cases t with
      | nil => simp [expandN]
      | cons c r =>
        simp only [List.length_cons] at hn hm
        have ih' : ∀ s t, t.length ≤ r.length → expandN E n s t = expandN E m s t := fun s t h => ih m s t (by omega) (by omega)
        have hsub : ∀ (s : σ) (w : Text), w.length ≤ r.length → (if calls w then expandN E n s w else .ok (s, w)) = (if calls w then expandN E m s w else .ok (s, w)) := by
          intro s w hw; rw [ih' s w hw]
        have htl : r.tail.length ≤ r.length := by simp
        simp only [expandN]
        by_cases h1 : c = '%'
        · simp only [if_pos h1]
          by_cases h2 : r.head? = some '%'
          · simp only [if_pos h2, ih' s _ htl]
          · simp only [if_neg h2]
            have hfl := flagOf_len r
            cases hx : extract '%' (flagOf r).2 with
            | none => simp only [ih' s _ hfl]
            | some p =>
              have := extract_len hx
              simp only [hsub s p.1 (by omega)]
              congr 1; funext q; congr 1; funext v
              rw [ih' q.1 p.2 (by omega)]
        · simp only [if_neg h1]
          by_cases h2 : c = '{'
          · simp only [if_pos h2]
            by_cases h3 : r.head? = some '{'
            · simp only [if_pos h3, ih' s _ htl]
            · simp only [if_neg h3]
              cases hx : extract '}' r with
              | none => simp only [ih' s _ htl]
              | some p =>
                have := extract_len hx
                simp only [hsub s p.1 (by omega)]
                congr 1; funext q
                rw [ih' _ p.2 (by omega)]
          · simp only [if_neg h2]
            by_cases h3 : c = '@'
            · simp only [if_pos h3]
              by_cases h4 : r.head? = some '@'
              · simp only [if_pos h4, ih' s _ htl]
              · simp only [if_neg h4]
                cases hx : extractPar 0 false r with
                | none => simp only [ih' s r (Nat.le_refl _)]
                | some p =>
                  have := extractPar_len hx
                  simp only [hsub s p.1 (by omega)]
                  congr 1; funext q
                  cases split ['(', ','] q.2 with
                  | nil => rfl
                  | cons f args =>
                    simp only
                    rw [ih' _ p.2 (by omega), ih' _ r (Nat.le_refl _)]
            · simp only [if_neg h3]
              by_cases h4 : c = '`' ∧ E.noparse s = true
              · simp only [if_pos h4]
                by_cases h5 : r.head? = some '`'
                · simp only [if_pos h5, ih' s _ htl]
                · simp only [if_neg h5]
                  cases hx : extract '`' r with
                  | none => simp only [ih' s _ htl]
                  | some p =>
                    have := extract_len hx
                    simp only
                    rw [ih' s p.2 (by omega)]
              · simp only [if_neg h4, ih' s r (Nat.le_refl _)]

/-- The expansion in `RP_gmacro`, `RP_gcmd`, `RP_gfn`. -/
def sub (E : Env σ) (s : σ) (w : Text) : Res (σ × Text) := if calls w then expand E s w else .ok (s, w)

theorem expand_cons (E : Env σ) (s : σ) (c : Char) (r : Text) : expand E s (c :: r) =
    if c = '%' then
      if r.head? = some '%' then put ['%'] (expand E s r.tail)
      else
        match extract '%' (flagOf r).2 with
        | some (w, r2) =>
          (sub E s w).bind fun p => (macroVal E p.1 p.2).bind fun v =>
            put (change (flagOf r).1 (v.getD ('%' :: w ++ ['%']))) (expand E p.1 r2)
        | none => put [(flagOf r).1.getD '%'] (expand E s (flagOf r).2)
    else if c = '{' then
      if r.head? = some '{' then put ['{'] (expand E s r.tail)
      else match extract '}' r with
        | some (w, r2) =>
          (sub E s w).bind fun p => put ((E.eval p.1 p.2).2.getD []) (expand E (E.eval p.1 p.2).1 r2)
        | none => if r = [] then .ub else expand E s r.tail
    else if c = '@' then
      if r.head? = some '@' then put ['@'] (expand E s r.tail)
      else match extractPar 0 false r with
        | some (w, r2) =>
          (sub E s w).bind fun p =>
            match split ['(', ','] p.2 with
            | [] => .ub
            | f :: args =>
              match (E.fn p.1 f args).2 with
              | some t => put t (expand E (E.fn p.1 f args).1 r2)
              | none => put ['@'] (expand E (E.fn p.1 f args).1 r)
        | none => put ['@'] (expand E s r)
    else if c = '`' ∧ E.noparse s = true then
      if r.head? = some '`' then put ['`'] (expand E s r.tail)
      else match extract '`' r with
        | some (w, r2) => put w (expand E s r2)
        | none => if r = [] then .ub else expand E s r.tail
    else put [c] (expand E s r) := by
  have ih' : ∀ s t, t.length ≤ r.length → expandN E (r.length + 1) s t = expand E s t := fun s t h => fuel E _ _ s t (by omega) (by omega)
  have hsub : ∀ (s : σ) (w : Text), w.length ≤ r.length → (if calls w then expandN E (r.length + 1) s w else .ok (s, w)) = sub E s w := by
    intro s w hw; rw [ih' s w hw, sub]
  have htl : r.tail.length ≤ r.length := by simp
  have hfl := flagOf_len r
  conv => lhs; unfold expand
  simp only [List.length_cons, expandN]
  by_cases h1 : c = '%'
  · simp only [if_pos h1]
    by_cases h2 : r.head? = some '%'
    · simp only [if_pos h2, ih' s _ htl]
    · simp only [if_neg h2]
      cases hx : extract '%' (flagOf r).2 with
      | none => simp only [ih' s _ hfl]
      | some p =>
        have := extract_len hx
        simp only [hsub s p.1 (by omega)]
        congr 1; funext q; congr 1; funext v
        rw [ih' q.1 p.2 (by omega)]
  · simp only [if_neg h1]
    by_cases h2 : c = '{'
    · simp only [if_pos h2]
      by_cases h3 : r.head? = some '{'
      · simp only [if_pos h3, ih' s _ htl]
      · simp only [if_neg h3]
        cases hx : extract '}' r with
        | none => simp only [ih' s _ htl]
        | some p =>
          have := extract_len hx
          simp only [hsub s p.1 (by omega)]
          congr 1; funext q
          rw [ih' _ p.2 (by omega)]
    · simp only [if_neg h2]
      by_cases h3 : c = '@'
      · simp only [if_pos h3]
        by_cases h4 : r.head? = some '@'
        · simp only [if_pos h4, ih' s _ htl]
        · simp only [if_neg h4]
          cases hx : extractPar 0 false r with
          | none => simp only [ih' s r (Nat.le_refl _)]
          | some p =>
            have := extractPar_len hx
            simp only [hsub s p.1 (by omega)]
            congr 1; funext q
            cases split ['(', ','] q.2 with
            | nil => rfl
            | cons f args =>
              simp only
              rw [ih' _ p.2 (by omega), ih' _ r (Nat.le_refl _)]
              cases (E.fn q.1 f args).2 <;> rfl
      · simp only [if_neg h3]
        by_cases h4 : c = '`' ∧ E.noparse s = true
        · simp only [if_pos h4]
          by_cases h5 : r.head? = some '`'
          · simp only [if_pos h5, ih' s _ htl]
          · simp only [if_neg h5]
            cases hx : extract '`' r with
            | none => simp only [ih' s _ htl]
            | some p =>
              have := extract_len hx
              simp only
              rw [ih' s p.2 (by omega)]
        · simp only [if_neg h4, ih' s r (Nat.le_refl _)]

/-! ## The pieces -/

theorem put_put (a b : Text) (r : Res (σ × Text)) : put a (put b r) = put (a ++ b) r := by
  cases r <;> simp [put, Res.bind]

theorem put_nil (r : Res (σ × Text)) : put [] r = r := by
  cases r <;> simp [put, Res.bind]

theorem put_ok (a : Text) (s : σ) (t : Text) : put a (.ok (s, t)) = .ok (s, a ++ t) := rfl

theorem extract_at {ch : Char} : ∀ {w : Text} (r : Text), ch ∉ w → extract ch (w ++ ch :: r) = some (w, r)
  | [], r, _ => by simp [extract]
  | c :: w, r, h => by
    simp only [List.mem_cons, not_or] at h
    simp only [List.cons_append, extract, if_neg (Ne.symm h.1), extract_at r h.2, Option.map_some]

theorem expand_escape {E : Env σ} {s : σ} (hE : E.Usual s) (rest : Text) : ∀ t : Text, expand E s (escape t ++ rest) = put t (expand E s rest)
  | [] => by simp [escape, put_nil]
  | c :: t => by
    have ih := expand_escape hE rest t
    have hn := hE.1
    have he : escape (c :: t) = (if Special c then [c, c] else [c]) ++ escape t := by simp [escape]
    rw [he]
    by_cases hc : Special c
    · rw [if_pos hc]
      simp only [List.cons_append, List.nil_append]
      rw [expand_cons]
      rcases hc with rfl | rfl | rfl | rfl
      · simp [ih, put_put]
      · simp [ih, put_put]
      · simp [ih, put_put]
      · simp [ih, put_put, hn]
    · rw [if_neg hc]
      simp only [List.cons_append, List.nil_append]
      rw [expand_cons]
      simp only [Special, not_or] at hc
      obtain ⟨h1, h2, h3, h4⟩ := hc
      rw [if_neg h1, if_neg h2, if_neg h3, if_neg (by simp [h4]), ih, put_put]
      rfl

/-- The text of a reference. -/
theorem Ref.text_chars {r : Ref} (h : r.Good) : (∀ c ∈ r.text, c ≠ '%' ∧ c ≠ '{' ∧ c ≠ '@') ∧
    ∃ c t, r.text = c :: t ∧ c ≠ '!' ∧ c ≠ '#' ∧ c ≠ '-' := by
  cases r with
  | name x =>
    obtain ⟨h1, c, t, rfl, -, -, h2, h3, h4⟩ := h
    exact ⟨h1, c, t, rfl, h2, h3, h4⟩
  | arg i =>
    have hd := natToChars_isDigit i
    refine ⟨fun c hc => ?_, ?_⟩
    · have := hd c hc
      refine ⟨?_, ?_, ?_⟩ <;> rintro rfl <;> revert this <;> decide
    · cases hx : natToChars i with
      | nil => exact absurd hx (natToChars_ne_nil i)
      | cons c t =>
        have := hd c (by simp [hx])
        refine ⟨c, t, hx, ?_, ?_, ?_⟩ <;> rintro rfl <;> revert this <;> decide
  | count => exact ⟨by simp [Ref.text], '0', [], rfl, by decide, by decide, by decide⟩
  | all => exact ⟨by simp [Ref.text], '*', [], rfl, by decide, by decide, by decide⟩

theorem macroVal_ref {E : Env σ} {s : σ} (hE : E.Usual s) {r : Ref} (h : r.Good) : macroVal E s r.text = .ok (r.val E s) := by
  obtain ⟨-, ha, hb⟩ := hE
  cases r with
  | name x =>
    obtain ⟨-, c, t, rfl, h1, h2, -⟩ := h
    simp [macroVal, Ref.text, Ref.val, h1, h2]
  | arg i =>
    obtain ⟨hi, hi'⟩ := h
    have hd := natToChars_isDigit i
    have hat : atoi (natToChars i) = some i := by
      unfold atoi
      rw [List.takeWhile_eq_self_iff.2 (fun c hc => by simpa using hd c hc), digitsVal_natToChars]
      simp [hi']
    simp only [Ref.text, Ref.val]
    cases hx : natToChars i with
    | nil => exact absurd hx (natToChars_ne_nil i)
    | cons c t =>
      have hc := hd c (by simp [hx])
      rw [hx] at hat
      simp only [macroVal, hc, if_true, hat]
      obtain ⟨j, rfl⟩ : ∃ j, i = j + 1 := ⟨i - 1, by omega⟩
      simp only [remaining, List.getElem?_drop]
      by_cases hq : ((j + 1 : Nat) : Int) + E.arg0 s > ((E.argv s).length : Int) - 1
      · rw [if_pos (.inr hq)]
        rw [List.getElem?_eq_none (by omega)]
      · rw [if_neg (by omega)]
        congr 2; omega
  | count =>
    have hd : isDigitC '0' = true := by decide
    have h0 : atoi ['0'] = some 0 := by decide
    simp only [Ref.text, Ref.val, macroVal, hd, if_true, h0]
    have : ((E.argv s).length : Int) - 1 - E.arg0 s = ((remaining E s).length : Nat) := by
      simp only [remaining, List.length_drop]; omega
    rw [this]
    simp [intToChars]
  | all =>
    have hd : isDigitC '*' = false := by decide
    simp only [Ref.text, Ref.val, macroVal, hd, Bool.false_eq_true, if_false, if_true]
    rw [if_neg (by omega)]
    simp only [remaining, List.drop_drop]
    congr 4; omega

theorem change_eq (flag : Option Char) (h : ∀ c, flag = some c → c = '!' ∨ c = '#' ∨ c = '-') (t : Text) : change flag t = changed flag t := by
  cases flag with
  | none => simp [change, changed]
  | some c =>
    rcases h c rfl with rfl | rfl | rfl <;> simp [change, changed]

theorem calls_false {t : Text} : calls t = false ↔ ∀ c ∈ t, c ≠ '%' ∧ c ≠ '{' ∧ c ≠ '@' := by
  simp [calls, and_assoc]

theorem expand_atom {E : Env σ} {s : σ} (hE : E.Usual s) (rest : Text) {a : Atom} (h : a.Good) :
    expand E s (a.text ++ rest) = put (a.val E s) (expand E s rest) := by
  cases a with
  | lit t => exact expand_escape hE rest t
  | ref flag r =>
    obtain ⟨hf, hr⟩ := h
    obtain ⟨h1, c, t, ht, h2, h3, h4⟩ := Ref.text_chars hr
    have hsub : sub E s r.text = .ok (s, r.text) := by
      rw [sub, calls_false.2 h1]; rfl
    have hex : extract '%' (r.text ++ '%' :: rest) = some (r.text, rest) := extract_at rest fun hm => (h1 _ hm).1 rfl
    have hfl : flagOf (flag.toList ++ (r.text ++ '%' :: rest)) = (flag, r.text ++ '%' :: rest) := by
      cases flag with
      | none =>
        simp only [Option.toList_none, List.nil_append, ht, List.cons_append, flagOf]
        rw [if_neg (by tauto)]
      | some d =>
        simp only [Option.toList_some, List.cons_append, List.nil_append, flagOf]
        rw [if_pos (hf d rfl)]
    have hh : (flag.toList ++ (r.text ++ '%' :: rest)).head? ≠ some '%' := by
      cases flag with
      | none =>
        have := (h1 c (by simp [ht])).1
        simp [ht, this]
      | some d =>
        have : d ≠ '%' := by rcases hf d rfl with rfl | rfl | rfl <;> decide
        simp [this]
    have htext : (Atom.ref flag r).text ++ rest = '%' :: (flag.toList ++ (r.text ++ '%' :: rest)) := by simp [Atom.text]
    rw [htext, expand_cons, if_pos rfl, if_neg hh, hfl]
    simp only [hex, hsub, Res.bind, macroVal_ref hE hr, change_eq flag hf]
    rfl

theorem expand_body {E : Env σ} {s : σ} (hE : E.Usual s) (rest : Text) : ∀ b : List Atom, (∀ a ∈ b, a.Good) →
    expand E s (bodyText b ++ rest) = put (bodyVal E s b) (expand E s rest)
  | [], _ => by simp [bodyText, bodyVal, put_nil]
  | a :: b, h => by
    have e1 : bodyText (a :: b) = a.text ++ bodyText b := by simp [bodyText]
    have e2 : bodyVal E s (a :: b) = a.val E s ++ bodyVal E s b := by simp [bodyVal]
    rw [e1, e2, List.append_assoc, expand_atom hE _ (h a (by simp)), expand_body hE rest b (fun a' ha => h a' (by simp [ha])), put_put]

theorem expand_nil (E : Env σ) (s : σ) : expand E s [] = .ok (s, []) := by simp [expand, expandN]

theorem escape_self {t : Text} (h : ∀ c ∈ t, ¬ Special c) : escape t = t := by
  induction t with
  | nil => rfl
  | cons c t ih =>
    have : escape (c :: t) = (if Special c then [c, c] else [c]) ++ escape t := by simp [escape]
    rw [this, if_neg (h c (by simp)), ih fun d hd => h d (by simp [hd])]
    rfl

theorem mem_escape {t : Text} {c : Char} (h : c ∈ t) : c ∈ escape t := by
  unfold escape
  rw [List.mem_flatMap]
  exact ⟨c, h, by split <;> simp⟩

theorem sub_body {E : Env σ} {s : σ} (hE : E.Usual s) {b : List Atom} (h : ∀ a ∈ b, a.Good ∧ a.Inner) : sub E s (bodyText b) = .ok (s, bodyVal E s b) := by
  unfold sub
  by_cases hc : calls (bodyText b) = true
  · rw [if_pos hc]
    have := expand_body hE [] b (fun a ha => (h a ha).1)
    rw [List.append_nil, expand_nil, put_ok, List.append_nil] at this
    exact this
  · rw [if_neg hc]
    replace hc : calls (bodyText b) = false := by simpa using hc
    rw [calls_false] at hc
    have : bodyVal E s b = bodyText b := by
      clear hE
      induction b with
      | nil => rfl
      | cons a b ih =>
        have e1 : bodyText (a :: b) = a.text ++ bodyText b := by simp [bodyText]
        have e2 : bodyVal E s (a :: b) = a.val E s ++ bodyVal E s b := by simp [bodyVal]
        rw [e1, e2, ih (fun a' ha => h a' (by simp [ha])) (fun c hm => hc c (by rw [e1]; simp [hm]))]
        congr 1
        have hin := (h a (by simp)).2
        cases a with
        | lit t =>
          refine (escape_self fun c hm => ?_).symm
          obtain ⟨g1, g2, g3⟩ := hc c (by rw [e1]; exact List.mem_append_left _ (mem_escape hm))
          rintro (rfl | rfl | rfl | rfl)
          · exact g1 rfl
          · exact g2 rfl
          · exact g3 rfl
          · exact hin hm
        | ref flag r => exact absurd rfl (hc '%' (by rw [e1]; simp [Atom.text])).1
    rw [this]

/-! ## Words -/

theorem splitN_fuel (seps : List Char) : ∀ (n m : Nat) (t : Text), t.length < n → t.length < m → splitN seps n t = splitN seps m t := by
  intro n
  induction n with
  | zero => intro m t h; omega
  | succ n ih =>
    intro m t hn hm
    cases m with
    | zero => omega
    | succ m =>
      cases t with
      | nil => simp [splitN]
      | cons c r =>
        simp only [List.length_cons] at hn hm
        have ih' : ∀ t : Text, t.length ≤ r.length → splitN seps n t = splitN seps m t := fun t h => ih m t (by omega) (by omega)
        simp only [splitN]
        rw [ih' r (Nat.le_refl _)]
        congr 1
        have hdr : (((c :: r).dropWhile (· ∉ seps)).drop 1).length ≤ r.length := by
          have := (List.dropWhile_sublist (l := c :: r) (p := (· ∉ seps))).length_le
          simp only [List.length_cons] at this
          rw [List.length_drop]; omega
        rw [ih' _ hdr]
        congr 1
        cases r with
        | nil => rfl
        | cons d r =>
          simp only
          cases hx : extract '"' (d :: r) with
          | none => rfl
          | some p =>
            have := extract_len hx
            simp only
            rw [ih' p.2 (by omega)]

theorem split_nil (seps : List Char) : split seps [] = [] := rfl

theorem split_sep {seps : List Char} {c : Char} (h : c ∈ seps) (r : Text) : split seps (c :: r) = split seps r := by
  unfold split
  simp only [List.length_cons, splitN, if_pos h]

theorem take_word {seps : List Char} {w : Text} (hw : ∀ c ∈ w, c ∉ seps) {c : Char} (hc : c ∈ seps) (r : Text) :
    (w ++ c :: r).takeWhile (· ∉ seps) = w ∧ (w ++ c :: r).dropWhile (· ∉ seps) = c :: r := by
  induction w with
  | nil => simp [hc]
  | cons d w ih =>
    have := ih fun c hm => hw c (by simp [hm])
    have hd : decide (d ∉ seps) = true := by simp [hw d (by simp)]
    simp only [List.cons_append, List.takeWhile_cons, List.dropWhile_cons, hd, if_true, this, and_self]

theorem take_last {seps : List Char} {w : Text} (hw : ∀ c ∈ w, c ∉ seps) :
    w.takeWhile (· ∉ seps) = w ∧ w.dropWhile (· ∉ seps) = [] := by
  induction w with
  | nil => simp
  | cons d w ih =>
    have := ih fun c hm => hw c (by simp [hm])
    have hd : decide (d ∉ seps) = true := by simp [hw d (by simp)]
    simp only [List.cons_append, List.takeWhile_cons, List.dropWhile_cons, hd, if_true, this, and_self]

/-- A word, a separator and the rest. -/
theorem split_word {seps : List Char} {w : Text} (hne : w ≠ []) (hw : ∀ c ∈ w, c ∉ seps) (hq : w.head? ≠ some '"') {c : Char} (hc : c ∈ seps)
    (r : Text) : split seps (w ++ c :: r) = w :: split seps r := by
  obtain ⟨h1, h2⟩ := take_word hw hc r
  cases w with
  | nil => exact absurd rfl hne
  | cons d w =>
    have hd : d ≠ '"' := by simpa using hq
    unfold split
    simp only [List.cons_append, List.length_cons, splitN]
    rw [if_neg (hw d (by simp)), if_neg hd]
    rw [List.cons_append] at h1 h2
    rw [h1, h2, List.drop_one, List.tail_cons]
    rw [splitN_fuel seps _ (r.length + 1) r (by simp; omega) (by omega)]

theorem split_last {seps : List Char} {w : Text} (hne : w ≠ []) (hw : ∀ c ∈ w, c ∉ seps) (hq : w.head? ≠ some '"') : split seps w = [w] := by
  obtain ⟨h1, h2⟩ := take_last hw
  cases w with
  | nil => exact absurd rfl hne
  | cons d w =>
    have hd : d ≠ '"' := by simpa using hq
    unfold split
    simp only [List.length_cons, splitN]
    rw [if_neg (hw d (by simp)), if_neg hd, h1, h2]
    simp [splitN]

theorem split_words (seps : List Char) : ∀ (n : Nat) (t : Text), t.length < n → '"' ∉ t → split seps t = words seps t := by
  intro n
  induction n with
  | zero => intro t h; omega
  | succ n ih =>
    intro t hn hq
    by_cases hall : ∀ c ∈ t, c ∉ seps
    · have hs : t.splitOnP (· ∈ seps) = [t] := List.splitOnP_eq_singleton (by simpa using hall)
      unfold words
      rw [hs]
      by_cases ht : t = []
      · subst ht; simp [split_nil]
      · rw [split_last ht hall (by
          cases t with
          | nil => simp
          | cons c t => simp only [List.head?_cons]; rintro h; cases h; simp at hq)]
        simp [ht]
    · simp only [not_forall, not_not] at hall
      obtain ⟨c0, hm0, hc0⟩ := hall
      have hsplit : t = t.takeWhile (· ∉ seps) ++ t.dropWhile (· ∉ seps) := (List.takeWhile_append_dropWhile).symm
      cases hd : t.dropWhile (· ∉ seps) with
      | nil =>
        rw [List.dropWhile_eq_nil_iff] at hd
        simpa [hc0] using hd c0 hm0
      | cons c r =>
        have hc : c ∈ seps := by
          have := List.head_dropWhile_not (p := (· ∉ seps)) (l := t) (by rw [hd]; simp)
          simp only [hd, List.head_cons] at this
          simpa using this
        have hw : ∀ d ∈ t.takeWhile (· ∉ seps), d ∉ seps := by
          intro d hm
          simpa using List.mem_takeWhile_imp hm
        rw [hd] at hsplit
        generalize hwd : t.takeWhile (· ∉ seps) = w at hsplit hw
        have hwords : words seps t = if w = [] then words seps r else w :: words seps r := by
          unfold words
          conv => lhs; rw [hsplit]
          rw [List.splitOnP_append_cons_of_forall_mem (by simpa using hw) _ (by simpa using hc)]
          by_cases h : w = [] <;> simp [h]
        have hr : split seps r = words seps r := ih r (by
          have := congrArg List.length hsplit
          simp only [List.length_append, List.length_cons] at this; omega) (by
          intro h; apply hq; rw [hsplit]; simp [h])
        rw [hwords, ← hr]
        by_cases h : w = []
        · rw [if_pos h, hsplit, h, List.nil_append, split_sep hc]
        · rw [if_neg h, hsplit, split_word h hw (by
            cases w with
            | nil => simp
            | cons d w => simp only [List.head?_cons]; rintro h'; cases h'; apply hq; rw [hsplit]; simp) hc]

/-- `C62`: without double quotes the arguments of a function are the words between the separators. -/
theorem C62_words (seps : List Char) {t : Text} (h : '"' ∉ t) : split seps t = words seps t := split_words seps (t.length + 1) t (by omega) h

example : split ['(', ','] "take(2,,ab cd,".toList = ["take".toList, "2".toList, "ab cd".toList] := by decide +kernel

/-- `C62`: a word between quotes can contain separators. -/
theorem C62_quoted (seps : List Char) (hs : '"' ∉ seps) {w : Text} (hw : '"' ∉ w) (r : Text) : split seps ('"' :: (w ++ '"' :: r)) = w :: split seps r := by
  have he := extract_at r hw
  unfold split
  simp only [List.length_cons, splitN]
  rw [if_neg hs, if_pos trivial]
  cases hx : w ++ '"' :: r with
  | nil => simp at hx
  | cons d x =>
    simp only
    rw [← hx, he]
    simp only
    rw [splitN_fuel seps _ (r.length + 1) r (by simp; omega) (by omega)]

/-! ## The line -/

theorem word_not {c : Char} (h : wordCh c = true) : ¬ Special c ∧ c ≠ '(' ∧ c ≠ ')' ∧ c ≠ ',' ∧ c ≠ '"' := by
  refine ⟨?_, ?_, ?_, ?_, ?_⟩
  · rintro (rfl | rfl | rfl | rfl) <;> revert h <;> decide
  all_goals rintro rfl; revert h; decide

theorem extractPar_inner (rest : Text) : ∀ b : Text, (∀ c ∈ b, c ≠ '(' ∧ c ≠ ')' ∧ c ≠ '"') → extractPar 1 false (b ++ ')' :: rest) = some (b, rest)
  | [], _ => by simp [extractPar]
  | c :: b, h => by
    obtain ⟨h1, h2, h3⟩ := h c (by simp)
    simp only [List.cons_append, extractPar, if_neg h3, Bool.false_eq_true, if_false]
    rw [if_neg (by tauto), if_neg h2, if_neg h1, if_neg (by simp), extractPar_inner rest b fun d hd => h d (by simp [hd])]
    rfl

theorem extractPar_call {b : Text} (hb : ∀ c ∈ b, c ≠ '(' ∧ c ≠ ')' ∧ c ≠ '"') (rest : Text) : ∀ f : Text, (∀ c ∈ f, wordCh c = true) →
    extractPar 0 false (f ++ '(' :: (b ++ ')' :: rest)) = some (f ++ '(' :: b, rest)
  | [], _ => by
    simp only [List.nil_append, extractPar]
    simp [extractPar_inner rest b hb]
  | c :: f, h => by
    obtain ⟨-, h1, h2, -, h4⟩ := word_not (h c (by simp))
    simp only [List.cons_append, extractPar, if_neg h4, Bool.false_eq_true, if_false]
    rw [if_neg (by tauto), if_neg h2, if_neg h1, if_neg (by simp [h c]), extractPar_call hb rest f fun d hd => h d (by simp [hd])]
    rfl

theorem expand_tok {E : Env σ} {I : σ → Prop} (hE : E.Std I) {s : σ} (hs : I s) (rest : Text) {t : Tok} (h : t.Good) :
    expand E s (t.text ++ rest) = put (t.val E s).2 (expand E (t.val E s).1 rest) := by
  cases t with
  | atom a => exact expand_atom (hE s hs).1 rest h
  | quote t =>
    obtain ⟨h1, h2⟩ := h
    have ht : (Tok.quote t).text ++ rest = '`' :: (t ++ '`' :: rest) := by simp [Tok.text]
    have hh : (t ++ '`' :: rest).head? ≠ some '`' := by
      cases t with
      | nil => exact absurd rfl h1
      | cons c t => simp only [List.cons_append, List.head?_cons]; rintro h; cases h; simp at h2
    rw [ht, expand_cons, if_neg (by decide), if_neg (by decide), if_neg (by decide), if_pos ⟨rfl, (hE s hs).1.1⟩, if_neg hh, extract_at rest h2]
    rfl
  | brace b =>
    obtain ⟨h1, h2, h3, h4⟩ := h
    have ht : (Tok.brace b).text ++ rest = '{' :: (bodyText b ++ '}' :: rest) := by simp [Tok.text]
    have hh : (bodyText b ++ '}' :: rest).head? ≠ some '{' := by
      cases hb : bodyText b with
      | nil => exact absurd hb h2
      | cons c t => rw [hb] at h3; simpa using h3
    rw [ht, expand_cons, if_neg (by decide), if_pos rfl, if_neg hh, extract_at rest h4]
    simp only [sub_body (hE s hs).1 h1, Res.bind]
    rfl
  | call f b =>
    obtain ⟨⟨h1, h2⟩, h3, h4⟩ := h
    have ht : (Tok.call f b).text ++ rest = '@' :: (f ++ '(' :: (bodyText b ++ ')' :: rest)) := by simp [Tok.text]
    have hh : (f ++ '(' :: (bodyText b ++ ')' :: rest)).head? ≠ some '@' := by
      cases f with
      | nil => exact absurd rfl h1
      | cons c f =>
        have := (word_not (h2 c (by simp))).1
        simp only [List.cons_append, List.head?_cons]
        rintro h; cases h; exact this (by unfold Special; tauto)
    have hsp : ∀ c ∈ f ++ ['('], ¬ Special c := by
      intro c hc
      simp only [List.mem_append, List.mem_singleton] at hc
      rcases hc with hc | rfl
      · exact (word_not (h2 c hc)).1
      · decide
    have hb0 : ∀ a ∈ Atom.lit (f ++ ['(']) :: b, a.Good ∧ a.Inner := by
      intro a ha
      rcases List.mem_cons.1 ha with rfl | ha
      · exact ⟨trivial, fun hm => hsp _ hm (by decide)⟩
      · exact h3 a ha
    have ht0 : bodyText (Atom.lit (f ++ ['(']) :: b) = f ++ '(' :: bodyText b := by
      simp [bodyText, Atom.text, escape_self hsp]
    have hv0 : ∀ s, bodyVal E s (Atom.lit (f ++ ['(']) :: b) = f ++ '(' :: bodyVal E s b := by
      intro s; simp [bodyVal, Atom.val]
    have hs0 := sub_body (hE s hs).1 hb0
    rw [ht0, hv0] at hs0
    have hw : split ['(', ','] (f ++ '(' :: bodyVal E s b) = f :: split ['(', ','] (bodyVal E s b) :=
      split_word h1 (fun c hc => by have := word_not (h2 c hc); simp [this.2.1, this.2.2.2.1]) (by
        cases f with
        | nil => simp
        | cons c f => simp only [List.head?_cons]; rintro h; cases h; exact (word_not (h2 _ (by simp))).2.2.2.2 rfl) (by simp) _
    rw [ht, expand_cons, if_neg (by decide), if_neg (by decide), if_pos rfl, if_neg hh, extractPar_call h4 rest f h2]
    simp only [hs0, Res.bind, hw]
    generalize hv : E.fn s f (split ['(', ','] (bodyVal E s b)) = v
    obtain ⟨s', o⟩ := v
    cases o with
    | some t => simp [Tok.val, hv]
    | none =>
      have hb1 : ∀ a ∈ Atom.lit (f ++ ['(']) :: (b ++ [Atom.lit [')']]), a.Good := by
        intro a ha
        rcases List.mem_cons.1 ha with rfl | ha
        · trivial
        · rcases List.mem_append.1 ha with ha | ha
          · exact (h3 a ha).1
          · rw [List.mem_singleton.1 ha]; trivial
      have ht1 : bodyText (Atom.lit (f ++ ['(']) :: (b ++ [Atom.lit [')']])) = f ++ '(' :: (bodyText b ++ [')']) := by
        have : escape [')'] = [')'] := by decide
        simp [bodyText, Atom.text, escape_self hsp, this]
      have hv1 : bodyVal E s' (Atom.lit (f ++ ['(']) :: (b ++ [Atom.lit [')']])) = f ++ '(' :: (bodyVal E s' b ++ [')']) := by
        simp [bodyVal, Atom.val]
      have := expand_body (hE s' (by have := (hE s hs).2.2 f (split ['(', ','] (bodyVal E s b)); rwa [hv] at this)).1 rest _ hb1
      rw [ht1, hv1] at this
      simp only [List.append_assoc, List.cons_append, List.nil_append] at this
      simp only [Tok.val, hv, Option.getD_none]
      rw [this, put_put]
      rfl

theorem tok_keeps {E : Env σ} {I : σ → Prop} (hE : E.Std I) {s : σ} (hs : I s) (t : Tok) : I (t.val E s).1 := by
  cases t with
  | atom a => exact hs
  | quote t => exact hs
  | brace b => exact (hE s hs).2.1 _
  | call f b => exact (hE s hs).2.2 f _

/-- `C62`: every piece of a line is replaced by its value, from left to right; what replaces it is not read again. -/
theorem C62_line {E : Env σ} {I : σ → Prop} (hE : E.Std I) : ∀ (ts : List Tok) (s : σ), I s → (∀ t ∈ ts, t.Good) → expand E s (lineText ts) = .ok (lineVal E s ts)
  | [], s, _, _ => expand_nil E s
  | t :: ts, s, hs, h => by
    have e : lineText (t :: ts) = t.text ++ lineText ts := by simp [lineText]
    rw [e, expand_tok hE hs _ (h t (by simp)), C62_line hE ts _ (tok_keeps hE hs t) fun t' ht => h t' (by simp [ht])]
    rfl

/-- `C62`: any text can be written in a report by doubling the special characters. -/
theorem C62_escape {E : Env σ} {s : σ} (hE : E.Usual s) (t : Text) : expand E s (escape t) = .ok (s, t) := by
  have := expand_escape hE [] t
  rwa [List.append_nil, expand_nil, put_ok, List.append_nil] at this

/-- `C62`: text without special characters does not change. -/
theorem C62_plain {E : Env σ} {s : σ} (hE : E.Usual s) {t : Text} (h : ∀ c ∈ t, ¬ Special c) : expand E s t = .ok (s, t) := by
  have := C62_escape hE t
  rwa [escape_self h] at this

/-- `C62`: a call is replaced by the value of the function on the words between the parentheses, after the macros in them. -/
theorem C62_call {E : Env σ} {I : σ → Prop} (hE : E.Std I) {s : σ} (hs : I s) {f : Text} {b : List Atom} (hg : (Tok.call f b).Good) (hq : '"' ∉ bodyVal E s b) {s' : σ} {v : Text}
    (hf : E.fn s f (words ['(', ','] (bodyVal E s b)) = (s', some v)) : expand E s (Tok.call f b).text = .ok (s', v) := by
  have := C62_line hE [.call f b] s hs (by simpa using hg)
  simpa [lineText, lineVal, Tok.val, C62_words _ hq, hf] using this

/-- `C62`: `%0%` and `%i%` behind `$shift`: the arguments that are left. -/
theorem C62_args {E : Env σ} {s : σ} (hE : E.Usual s) : expand E s "%0%".toList = .ok (s, natToChars (remaining E s).length) ∧
    ∀ i (h : i < (remaining E s).length), i < 2147483647 → expand E s ('%' :: (natToChars (i + 1) ++ ['%'])) = .ok (s, (remaining E s)[i]) := by
  constructor
  · have := expand_atom hE [] (a := .ref none .count) (by simp [Atom.Good, Ref.Good])
    simpa [expand_nil, put_ok, Atom.text, Atom.val, Ref.text, Ref.val, changed] using this
  · intro i h hi
    have := expand_atom hE [] (a := .ref none (.arg (i + 1))) (by simp [Atom.Good, Ref.Good]; omega)
    simpa [expand_nil, put_ok, Atom.text, Atom.val, Ref.text, Ref.val, changed, h] using this

/-! ## Examples: a report `rep` with the arguments `one` and `two`; the state counts the shifts -/

/-- `X` is a macro; braces give the length of their text and shift; `@upper` is a function. -/
def exEnv : Env Int where
  look _ x := if x = "X".toList then some "a-B_c 1".toList else none
  argv _ := ["rep".toList, "one".toList, "two".toList]
  arg0 s := s
  noparse _ := true
  eval s t := (s + 1, some (natToChars t.length))
  fn s f args := if f = "upper".toList then (s, some ((List.intercalate [' '] args).map toUpperC)) else (s, none)

/-- The same report, shifted by `k`: an environment in its usual state. -/
def stdEnv (k : Nat) (h : k ≤ 2) : Env Unit where
  look _ x := exEnv.look 0 x
  argv _ := exEnv.argv 0
  arg0 _ := k
  noparse _ := true
  eval _ t := ((), some (natToChars t.length))
  fn _ f args := ((), (exEnv.fn 0 f args).2)

example (k : Nat) (h : k ≤ 2) : (stdEnv k h).Std fun _ => True := fun _ _ => ⟨⟨rfl, by simp [stdEnv], by simp [stdEnv, exEnv]; omega⟩, fun _ => trivial, fun _ _ => trivial⟩

example : (Tok.call "upper".toList [.lit "x, %".toList, .ref (some '#') (.name "X".toList)]).Good ∧ (Tok.brace [.lit "1+".toList, .ref none (.arg 1)]).Good := by
  refine ⟨⟨⟨by decide, by decide +kernel⟩, ?_, by decide +kernel⟩, ⟨?_, by decide +kernel, by decide +kernel, by decide +kernel⟩⟩
  · intro a ha
    simp only [List.mem_cons, List.not_mem_nil, or_false] at ha
    rcases ha with rfl | rfl
    · exact ⟨trivial, by unfold Atom.Inner; decide +kernel⟩
    · exact ⟨⟨by simp, ⟨by decide +kernel, 'X', [], rfl, by decide⟩⟩, by unfold Atom.Inner; decide +kernel⟩
  · intro a ha
    simp only [List.mem_cons, List.not_mem_nil, or_false] at ha
    rcases ha with rfl | rfl
    · exact ⟨trivial, by unfold Atom.Inner; decide +kernel⟩
    · exact ⟨⟨by simp, by simp [Ref.Good]⟩, trivial⟩

example : expand exEnv 0 "%X% %!X% %#X% %-X% 100%% %1%-%2% %0% %*%".toList = .ok (0, "a-B_c 1 a-b_c 1 A-B_C 1 aB_c1 100% one-two 2 one;two".toList) := by
  decide +kernel

example : expand exEnv 0 "{x%1%} %1% @upper(%1%,b) @none(%X%) `%1% {` %y%".toList = .ok (1, "4 two TWO B @none(a-B_c 1) %1% { %y%".toList) := by
  decide +kernel

/-! ## Where the code does not do what the manual says -/

/-- A brace or a backquote at the end of a line: the code reads behind the end of the text. -/
theorem C62_end_counterexample : expand exEnv 0 "a {".toList = .ub ∧ expand exEnv 0 "a `".toList = .ub := by decide +kernel

/-- A brace or a backquote that is not closed disappears, and the next character with it. -/
theorem C62_open_counterexample : expand exEnv 0 "a {1+b".toList = .ok (0, "a +b".toList) ∧ expand exEnv 0 "it`s".toList = .ok (0, "it".toList) := by
  decide +kernel

/-- A percent sign that is not closed stands for itself, but not before `-`, `!` and `#`. -/
theorem C62_percent_counterexample : expand exEnv 0 "5% of".toList = .ok (0, "5% of".toList) ∧ expand exEnv 0 "5%-6".toList = .ok (0, "5-6".toList) := by
  decide +kernel

/-- `@` followed by parentheses without a name: the code builds a `std::string` from the null pointer. -/
theorem C62_noname_counterexample : expand exEnv 0 "a@()".toList = .ub ∧ expand exEnv 0 "a@)".toList = .ub := by decide +kernel

/-- After `$shift -1` the first argument is the name of the report, and `%0%` is too large. -/
theorem C62_unshift_counterexample : expand exEnv (-1) "%1% %0%".toList = .ok (-1, "rep 3".toList) := by decide +kernel

/-- After more shifts than arguments `%0%` is negative, and `%*%` reads behind the end of the arguments. -/
theorem C62_shift_counterexample : expand exEnv 3 "%0%".toList = .ok (3, "-1".toList) ∧ expand exEnv 3 "%*%".toList = .ub := by decide +kernel

/-- The flag of a macro without value is lost. -/
theorem C62_flag_counterexample : expand exEnv 0 "%!Y%".toList = .ok (0, "%y%".toList) ∧ expand exEnv 0 "%-Y%".toList = .ok (0, "Y".toList) := by
  decide +kernel

/-- The manual shows `%*%` with blanks between the arguments. -/
theorem C62_all_counterexample : expand exEnv 0 "%*%".toList = .ok (0, "one;two".toList) := by decide +kernel

end Iode.Expand
