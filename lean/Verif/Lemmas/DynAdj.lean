import Verif.Spec.DynAdj
import Verif.Lemmas.RepFn
import Verif.Props.C47
import Verif.Props.C27

/-! # Lemmas on the dynamic adjustment: sides of an equation, texts put into texts -/
namespace Iode.DynAdj

open Iode.RepFn (FirstAt stripText)
open Iode.Lec Iode.Lec.Written

/-! ## The sides -/

theorem splitEq_append : ∀ {a : Text} (r : Text), splitEq a = none → splitEq (a ++ ':' :: '=' :: r) = some (a, r)
  | [], r, _ => by simp [splitEq]
  | c :: a, r, h => by
    rw [splitEq] at h
    have h1 : ¬ (c = ':' ∧ a.head? = some '=') := by
      intro h0; rw [if_pos h0] at h; cases h
    rw [if_neg h1, Option.map_eq_none_iff] at h
    rw [List.cons_append, splitEq, if_neg, splitEq_append r h]
    · rfl
    · rintro ⟨e1, e2⟩
      cases a with
      | nil => simp at e2
      | cons d a => exact h1 ⟨e1, by simpa using e2⟩

theorem splitEq_left : ∀ {a b : Text}, splitEq (a ++ b) = none → splitEq a = none
  | [], b, _ => rfl
  | c :: a, b, h => by
    rw [List.cons_append, splitEq] at h
    have h1 : ¬ (c = ':' ∧ (a ++ b).head? = some '=') := by
      intro h0; rw [if_pos h0] at h; cases h
    rw [if_neg h1, Option.map_eq_none_iff] at h
    rw [splitEq, if_neg, splitEq_left h]
    · rfl
    · rintro ⟨e1, e2⟩
      cases a with
      | nil => simp at e2
      | cons d a => exact h1 ⟨e1, by simpa using e2⟩

theorem splitEq_colon : ∀ {x : Text}, ':' ∉ x → splitEq x = none
  | [], _ => rfl
  | c :: x, h => by
    simp only [List.mem_cons, not_or] at h
    rw [splitEq, if_neg fun e => h.1 e.1.symm, splitEq_colon h.2]
    rfl

theorem splitEq_mid {x : Text} (hx : ':' ∉ x) : ∀ {a : Text}, splitEq a = none → x.head? ≠ some '=' → splitEq (a ++ x) = none
  | [], _, _ => splitEq_colon hx
  | c :: a, h, h0 => by
    rw [splitEq] at h
    have h1 : ¬ (c = ':' ∧ a.head? = some '=') := by
      intro h0; rw [if_pos h0] at h; cases h
    rw [if_neg h1, Option.map_eq_none_iff] at h
    rw [List.cons_append, splitEq, if_neg, splitEq_mid hx h h0]
    · rfl
    · rintro ⟨e1, e2⟩
      cases a with
      | nil => exact h0 (by simpa using e2)
      | cons d a => exact h1 ⟨e1, by simpa using e2⟩

theorem splitEq_sound : ∀ {t a b : Text}, splitEq t = some (a, b) → t = a ++ ':' :: '=' :: b ∧ splitEq a = none
  | [], a, b, h => by cases h
  | c :: t, a, b, h => by
    rw [splitEq] at h
    by_cases h1 : c = ':' ∧ t.head? = some '='
    · rw [if_pos h1] at h
      cases h
      obtain ⟨rfl, h2⟩ := h1
      cases t with
      | nil => cases h2
      | cons d t => simp at h2; subst h2; exact ⟨rfl, rfl⟩
    · rw [if_neg h1, Option.map_eq_some_iff] at h
      obtain ⟨⟨a', b'⟩, h2, h3⟩ := h
      cases h3
      obtain ⟨e1, e2⟩ := splitEq_sound h2
      refine ⟨by rw [e1]; rfl, ?_⟩
      rw [splitEq, if_neg, e2]
      · rfl
      · rintro ⟨rfl, e⟩
        apply h1
        refine ⟨rfl, ?_⟩
        cases a' with
        | nil => cases e
        | cons d a' => rw [e1]; simpa using e

theorem splitEq_none_infix : ∀ {a : Text}, splitEq a = none → ∀ x y, a ≠ x ++ ':' :: '=' :: y := by
  intro a h x y e
  subst e
  have := splitEq_left (a := x ++ [':', '=']) (b := y) (by simpa using h)
  induction x with
  | nil => simp [splitEq] at this
  | cons c x ih =>
    simp only [List.cons_append] at h this
    rw [splitEq] at h this
    split at h
    · cases h
    · split at this
      · cases this
      · rw [Option.map_eq_none_iff] at h this
        exact ih h this

theorem firstAt_splitEq {t a b : Text} : splitEq t = some (a, b) ↔ FirstAt [':', '='] t a b := by
  have hsound : ∀ {a b}, splitEq t = some (a, b) → FirstAt [':', '='] t a b := by
    intro a b h
    obtain ⟨e1, e2⟩ := splitEq_sound h
    refine ⟨by simpa using e1, fun a' b' e => ?_⟩
    by_contra hlt
    simp only [List.append_assoc, List.cons_append, List.nil_append] at e
    rw [e1] at e
    rcases List.append_eq_append_iff.mp e with ⟨x, h1, h2⟩ | ⟨x, h1, h2⟩
    · rw [h1] at hlt; simp at hlt
    · cases x with
      | nil => simp at h1; subst h1; omega
      | cons c x =>
        cases x with
        | nil =>
          simp at h2
        | cons d x =>
          simp at h2
          obtain ⟨rfl, rfl, h2⟩ := h2
          exact splitEq_none_infix e2 _ _ h1
  refine ⟨hsound, fun h => ?_⟩
  cases hs : splitEq t with
  | none => exact absurd h.1 (by simpa using splitEq_none_infix hs a b)
  | some p =>
    obtain ⟨a', b'⟩ := p
    obtain ⟨rfl, rfl⟩ := RepFn.firstAt_unique (hsound hs) h
    rfl

theorem strip_blanks {l w : Text} (hw : ∀ c ∈ w, c.toNat ≤ 32) (hl : ∀ c, l.getLast? = some c → 32 < c.toNat) : stripText (l ++ w) = l := by
  have key : ∀ x : Text, (∀ c ∈ x, c.toNat ≤ 32) → ∀ y : Text, (x ++ y).dropWhile (fun c => decide (c.toNat ≤ 32)) = y.dropWhile fun c => decide (c.toNat ≤ 32) := by
    intro x hx y
    induction x with
    | nil => rfl
    | cons c x ih => rw [List.cons_append, List.dropWhile_cons_of_pos (by simpa using hx c (by simp)), ih fun c hc => hx c (by simp [hc])]
  unfold stripText
  rw [List.reverse_append, key _ (by simpa using hw)]
  have : l.reverse.dropWhile (fun c => decide (c.toNat ≤ 32)) = l.reverse := by
    cases h : l.reverse with
    | nil => rfl
    | cons c x =>
      have hc := hl c (by rw [← List.head?_reverse, h]; rfl)
      rw [List.dropWhile_cons_of_neg (by simp; omega)]
  rw [this, List.reverse_reverse]

theorem strip_self {l : Text} (hl : ∀ c, l.getLast? = some c → 32 < c.toNat) : stripText l = l := by
  have := strip_blanks (w := []) (by simp) hl
  simpa using this

/-! ## Texts of formulas -/

theorem white_32 {c : Char} (h : White c) : c.toNat ≤ 32 := by
  rcases h with h | h | h | h | h <;> omega

theorem gap_append {g h : Text} (hg : Gap g) (hh : Gap h) : Gap (g ++ h) := by
  induction hg with
  | nil => exact hh
  | white hc _ ih => exact .white hc ih
  | @block b g hb _ ih => simpa using Gap.block hb ih
  | @line b g hb _ ih => simpa using Gap.line hb ih

theorem simple_first : ∀ p ∈ simple, ¬ White p.1 ∧ (p.1 = ')' → p.2 = .closep) := by decide
theorem longer_first : ∀ p ∈ longer, ¬ White p.1 ∧ p.1 ≠ ')' := by decide
theorem pairs_first : ∀ p ∈ pairs, ¬ White p.1 ∧ p.1 ≠ ')' := by decide
theorem keywords_first : ∀ p ∈ keywords, ∃ c r, p.1.toList = c :: r ∧ ¬ White c ∧ c ≠ ')' := by
  have : ∀ p ∈ keywords, p.1.toList.head?.any (fun c => decide (¬ White c ∧ c ≠ ')')) = true := by decide +kernel
  intro p hp
  have := this p hp
  cases h : p.1.toList with
  | nil => rw [h] at this; cases this
  | cons c r => rw [h] at this; exact ⟨c, r, rfl, by simpa using this⟩

theorem digit_first {c : Char} (h : Digit c) : ¬ White c ∧ c ≠ ')' := by
  unfold Digit at h
  refine ⟨fun hw => ?_, ?_⟩
  · have := white_32 hw; omega
  · rintro rfl; exact absurd h.1 (by decide)

theorem nameCh_first {c : Char} (h : NameCh c) : ¬ White c ∧ c ≠ ')' := by
  have h48 : 48 ≤ c.toNat := by
    rcases h with h | h | h | rfl
    · unfold Upper at h; omega
    · unfold Lower at h; omega
    · unfold Digit at h; omega
    · decide
  refine ⟨fun hw => ?_, ?_⟩
  · have := white_32 hw; omega
  · rintro rfl; exact absurd h48 (by decide)

theorem item_first {rnd : Rat → Rat} {txt rest : Text} {tok : RTok} (h : Item rnd txt tok rest) :
    ∃ c r, txt = c :: r ∧ ¬ White c ∧ (c = ')' → tok = .closep) ∧ tok ≠ .eoe := by
  have digits : ∀ (d r : Text), Digits d → d ≠ [] → ∃ c x, d ++ r = c :: x ∧ ¬ White c ∧ c ≠ ')' := by
    intro d r hd hn
    cases d with
    | nil => exact absurd rfl hn
    | cons c d => exact ⟨c, d ++ r, rfl, digit_first (hd c (by simp))⟩
  cases h with
  | simple hm => exact ⟨_, _, rfl, (simple_first _ hm).1, (simple_first _ hm).2, (simple_tok _ hm).2⟩
  | divide => exact ⟨_, _, rfl, by decide, by decide, by simp⟩
  | longer hm => exact ⟨_, _, rfl, (longer_first _ hm).1, fun e => absurd e (longer_first _ hm).2, (longer_tok _ hm).2⟩
  | pair hm => exact ⟨_, _, rfl, (pairs_first _ hm).1, fun e => absurd e (pairs_first _ hm).2, (pairs_tok _ hm).2⟩
  | keyword hm =>
    obtain ⟨c, r, h1, h2, h3⟩ := keywords_first _ hm
    exact ⟨c, r, h1, h2, fun e => absurd e h3, (keywords_tok _ hm).2⟩
  | @coef c w _ _ hw =>
    have := nameCh_first (scalarName_nameCh hw c (by simp))
    exact ⟨_, _, rfl, this.1, fun e => absurd e this.2, by simp⟩
  | @var c w _ _ hw =>
    have := nameCh_first (hw c (by simp))
    exact ⟨_, _, rfl, this.1, fun e => absurd e this.2, by simp⟩
  | long hd hn =>
    obtain ⟨c, x, h1, h2, h3⟩ := digits _ [] hd hn
    exact ⟨c, x, by simpa using h1, h2, fun e => absurd e h3, by simp⟩
  | period hd hn =>
    obtain ⟨c, x, h1, h2, h3⟩ := digits _ _ hd hn
    exact ⟨c, x, h1, h2, fun e => absurd e h3, by simp⟩
  | real hd =>
    cases hd with
    | whole hi hn =>
      obtain ⟨c, x, h1, h2, h3⟩ := digits _ _ hi hn
      exact ⟨c, x, h1, h2, fun e => absurd e h3, by simp⟩
    | @point i f x e hi hf _ _ =>
      cases i with
      | nil => exact ⟨_, _, rfl, by decide, fun e => absurd e (by decide), by simp⟩
      | cons c i =>
        have := digit_first (hi c (by simp))
        exact ⟨_, _, rfl, this.1, fun e => absurd e this.2, by simp⟩

theorem body_laid {rnd : Rat → Rat} {ts : List RTok} {s : Text} (h : Body rnd ts s) : Laid rnd ts s := by
  induction h with
  | nil hg => exact .nil hg
  | cons hg hi _ ih => exact .cons hg hi ih

theorem body_eoe {rnd : Rat → Rat} {ts : List RTok} {s : Text} (h : Body rnd ts s) : RTok.eoe ∉ ts := by
  induction h with
  | nil => simp
  | cons _ hi _ ih =>
    obtain ⟨_, _, _, _, _, h⟩ := item_first hi
    simp only [List.mem_cons, not_or]
    exact ⟨fun e => h e.symm, ih⟩

theorem next_cons {c : Char} (s : Text) : next (c :: s) = if White c then next s else some c := by
  unfold next
  by_cases h : White c
  · rw [if_pos h, List.dropWhile_cons_of_pos (by simpa using h)]
  · rw [if_neg h, List.dropWhile_cons_of_neg (by simpa using h)]; rfl

theorem next_append : ∀ (s r : Text), next (s ++ r) = if next s = none then next r else next s
  | [], r => by simp [next]
  | c :: s, r => by
    rw [List.cons_append, next_cons, next_cons]
    by_cases h : White c
    · rw [if_pos h, if_pos h, next_append s r]
    · rw [if_neg h, if_neg h, if_neg (by simp)]

theorem next_none : ∀ {s : Text}, next s = none → ∀ c ∈ s, White c
  | [], _ => by simp
  | c :: s, h => by
    rw [next_cons] at h
    by_cases hc : White c
    · rw [if_pos hc] at h
      intro d hd
      rcases List.mem_cons.mp hd with rfl | hd
      · exact hc
      · exact next_none h d hd
    · rw [if_neg hc] at h; cases h

theorem body_white {rnd : Rat → Rat} {ts : List RTok} {s : Text} (h : Body rnd ts s) (hn : next s = none) : ts = [] := by
  cases h with
  | nil => rfl
  | cons _ hi _ =>
    obtain ⟨c, r, rfl, h1, _⟩ := item_first hi
    exact absurd (next_none hn c (by simp)) h1

/-- A text that can stand behind a formula. -/
def Behind (rest : Text) : Prop := (rest.head? = some ')' ∧ next rest = some ')') ∨ (rest.head? = some ' ' ∧ next rest = some '-')

theorem longer_behind : ∀ p ∈ longer, '-' ∉ p.2.2 ∧ (')' ∈ p.2.2 → p.2.1 = .openp) := by decide

theorem item_append {rnd : Rat → Rat} {txt s rest : Text} {tok : RTok} (h : Item rnd txt tok s) (hr : Behind rest)
    (hp : next s = none → tok ≠ .openp) : Item rnd txt tok (s ++ rest) := by
  have hhead : rest.head? = some ')' ∨ rest.head? = some ' ' := hr.imp (·.1) (·.1)
  have head : ∀ c, (s ++ rest).head? = some c → s.head? = some c ∨ (c = ')' ∨ c = ' ') := by
    intro c hc
    cases s with
    | nil =>
      rw [List.nil_append] at hc
      right
      rcases hhead with h | h <;> rw [h] at hc <;> cases hc
      · exact .inl rfl
      · exact .inr rfl
    | cons d s => exact .inl (by simpa using hc)
  have nameEnd : NameEnd s → NameEnd (s ++ rest) := by
    intro h c hc
    rcases head c hc with h1 | rfl | rfl
    · exact h c h1
    · decide
    · decide
  have numEnd : NumEnd s → NumEnd (s ++ rest) := by
    intro h c hc
    rcases head c hc with h1 | rfl | rfl
    · exact h c h1
    · decide
    · decide
  cases h with
  | simple hm => exact .simple hm
  | divide h1 h2 =>
    refine .divide (fun e => ?_) (fun e => ?_)
    · rcases head _ e with h | h | h
      · exact h1 h
      · exact absurd h (by decide)
      · exact absurd h (by decide)
    · rcases head _ e with h | h | h
      · exact h2 h
      · exact absurd h (by decide)
      · exact absurd h (by decide)
  | longer hm hn =>
    refine .longer hm fun d hd => ?_
    rw [next_append] at hd
    by_cases h0 : next s = none
    · rw [if_pos h0] at hd
      rcases hr with hr | hr
      · rw [hr.2] at hd
        cases hd
        exact fun hx => hp h0 ((longer_behind _ hm).2 hx)
      · rw [hr.2] at hd
        cases hd
        exact (longer_behind _ hm).1
    · rw [if_neg h0] at hd
      exact hn d hd
  | pair hm hw => exact .pair hm hw
  | keyword hm he => exact .keyword hm (nameEnd he)
  | coef a b c d e => exact .coef a b c d (nameEnd e)
  | var a b c d e => exact .var a b c d (nameEnd e)
  | long a b c d e =>
    refine .long a b c (numEnd d) fun x hx => ?_
    rcases head x hx with h | rfl | rfl
    · exact e x h
    · decide
    · decide
  | period a b c d e f g h i => exact .period a b c d e f g h (numEnd i)
  | real a b c => exact .real a b (numEnd c)

theorem body_append {rnd : Rat → Rat} {ts us : List RTok} {s rest : Text} (h : Body rnd ts s) (hu : Body rnd us rest) (hr : Behind rest)
    (hp : ts.getLast? ≠ some .openp) : Body rnd (ts ++ us) (s ++ rest) := by
  induction h with
  | @nil g hg =>
    cases hu with
    | nil hg' => exact .nil (gap_append hg hg')
    | @cons g' txt tok ts s hg' hi hb =>
      rw [← List.append_assoc]
      exact .cons (gap_append hg hg') hi hb
  | @cons g txt tok ts s hg hi hb ih =>
    rw [List.append_assoc, List.append_assoc, List.cons_append]
    refine .cons hg (item_append hi hr fun hn e => ?_) (ih fun e => ?_)
    · rw [body_white hb hn, e] at hp
      exact hp rfl
    · apply hp
      cases ts with
      | nil => cases e
      | cons t ts => rw [List.getLast?_cons_cons]; exact e

theorem body_open {rnd : Rat → Rat} {ts : List RTok} {s : Text} (h : Body rnd ts s) (hp : ts.head? ≠ some .closep) : Item rnd ['('] .openp s := by
  refine .longer (ext := [')']) (by decide) fun d hd => ?_
  rintro (h0 : d ∈ [')'])
  rw [List.mem_singleton] at h0
  subst h0
  cases h with
  | nil hg =>
    have : ∀ {g : Text}, Gap g → next g ≠ some ')' := by
      intro g hg
      induction hg with
      | nil => simp [next]
      | white hc _ ih => rw [next_cons, if_pos hc]; exact ih
      | block => rw [next_cons, if_neg (by decide)]; simp
      | line => rw [next_cons, if_neg (by decide)]; simp
    exact this hg hd
  | @cons g txt tok ts s hg hi hb =>
    have : ∀ {g : Text}, Gap g → next (g ++ (txt ++ s)) = some ')' → tok = .closep := by
      intro g hg
      induction hg with
      | nil =>
        obtain ⟨c, r, rfl, h1, h2, _⟩ := item_first hi
        rw [List.nil_append, List.cons_append, next_cons, if_neg h1]
        intro e
        exact h2 (Option.some.inj e)
      | white hc _ ih => rw [List.cons_append, next_cons, if_pos hc]; exact ih
      | block => rw [List.cons_append, next_cons, if_neg (by decide)]; intro e; exact absurd (Option.some.inj e) (by decide)
      | line => rw [List.cons_append, next_cons, if_neg (by decide)]; intro e; exact absurd (Option.some.inj e) (by decide)
    exact hp (by rw [this hg hd]; rfl)

/-! ## Tokens of formulas -/

theorem G_ends {ext k ts es} (h : G ext k ts es) : ts.head? ≠ some .closep ∧ ts.getLast? ≠ some .openp := by
  have app : ∀ (a b : List Tok), b ≠ [] → (a ++ b).getLast? = b.getLast? := fun a b hb => by
    rw [List.getLast?_append_of_ne_nil _ hb]
  have head : ∀ (a b : List Tok), a ≠ [] → (a ++ b).head? = a.head? := fun a b ha => by
    cases a with
    | nil => exact absurd rfl ha
    | cons => rfl
  induction h with
  | par h ih => exact ⟨by simp, by rw [← List.cons_append, app _ _ (by simp)]; simp⟩
  | lag k h ih => exact ⟨by rw [head _ _ h.ne_nil]; exact ih.1, by rw [app _ _ (by simp)]; simp⟩
  | date k h ih => exact ⟨by rw [head _ _ h.ne_nil]; exact ih.1, by rw [app _ _ (by simp)]; simp⟩
  | up _ ih => exact ih
  | @minus ts e h ih => exact ⟨by simp, by rw [← List.singleton_append, app _ _ h.ne_nil]; exact ih.2⟩
  | @plus ts e h ih => exact ⟨by simp, by rw [← List.singleton_append, app _ _ h.ne_nil]; exact ih.2⟩
  | @un ts e f _ h ih => exact ⟨by simp, by rw [← List.singleton_append, app _ _ h.ne_nil]; exact ih.2⟩
  | @bin ts us a b o ha hb iha ihb =>
    exact ⟨by rw [head _ _ ha.ne_nil]; exact iha.1, by rw [app _ _ (by simp), ← List.singleton_append, app _ _ hb.ne_nil]; exact ihb.2⟩
  | @arg1 ts e h ih => exact ⟨by simp, by rw [← List.singleton_append, app _ _ h.ne_nil]; exact ih.2⟩
  | @argN ts us es e ha hb iha ihb =>
    exact ⟨by rw [head _ _ ha.ne_nil]; exact iha.1, by rw [app _ _ (by simp), ← List.singleton_append, app _ _ hb.ne_nil]; exact ihb.2⟩
  | call f _ _ h ih => exact ⟨by simp, by rw [← List.cons_append, app _ _ (by simp)]; simp⟩
  | ofCall _ ih => exact ih
  | callLag k _ h ih => exact ⟨by rw [head _ _ h.ne_nil]; exact ih.1, by rw [app _ _ (by simp)]; simp⟩
  | callDate k _ h ih => exact ⟨by rw [head _ _ h.ne_nil]; exact ih.1, by rw [app _ _ (by simp)]; simp⟩
  | _ => exact ⟨by simp, by simp⟩

theorem group_head {ts : List RTok} (h : ts.head? = some .closep) : (group ts).head? = some .closep := by
  cases ts with
  | nil => cases h
  | cons t ts => cases h; rw [group]; rfl

theorem group_last {ts : List RTok} : RTok.eoe ∉ ts → Tok.bad ∉ group ts → ts.getLast? = some .openp → (group ts).getLast? = some .openp := by
  have step : ∀ (x : Tok) (us : List RTok), us ≠ [] → (us.getLast? = some .openp → (group us).getLast? = some .openp) → us.getLast? = some .openp →
      (x :: group us).getLast? = some .openp := by
    intro x us _ ih h
    have := ih h
    cases hg : group us with
    | nil => rw [hg] at this; cases this
    | cons y ys => rw [hg] at this; rw [List.getLast?_cons_cons]; exact this
  fun_induction group ts with
  | case1 => simp
  | case5 => intro _ h; simp at h
  | case6 => intro _ h; simp at h
  | case7 => intro _ h; simp at h
  | case8 => intro h; simp at h
  | case2 n us ih =>
    intro he hb h
    simp only [List.mem_cons, not_or] at he hb
    cases us with
    | nil => simp at h
    | cons u us => exact step _ _ (by simp) (ih he.2.2.2.2 hb.2) (by simpa [List.getLast?_cons_cons] using h)
  | case3 n us ih =>
    intro he hb h
    simp only [List.mem_cons, not_or] at he hb
    cases us with
    | nil => simp at h
    | cons u us => exact step _ _ (by simp) (ih he.2.2.2.2 hb.2) (by simpa [List.getLast?_cons_cons] using h)
  | case4 p us ih =>
    intro he hb h
    simp only [List.mem_cons, not_or] at he hb
    cases us with
    | nil => simp at h
    | cons u us => exact step _ _ (by simp) (ih he.2.2.2 hb.2) (by simpa [List.getLast?_cons_cons] using h)
  | _ =>
    rename_i us ih
    intro he hb h
    simp only [List.mem_cons, not_or] at he hb
    cases us with
    | nil => first | rfl | simp at h
    | cons u us => exact step _ _ (by simp) (ih he.2 hb.2) (by simpa [List.getLast?_cons_cons] using h)

end Iode.DynAdj
