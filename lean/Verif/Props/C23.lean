import Verif.Model.Grep

/-!
# C23 — what a pattern matches

Specification: a pattern is a list of tokens (`parse`); a string fits when it can be cut in consecutive pieces, one per
token (`Fits`). `!` and `|` may stand for nothing at either end of the string, so `Fits` carries whether the start of
the string has been left.
-/
namespace Iode.Grep

/-- What the characters of a pattern mean. -/
inductive Tok where
  /-- any sequence -/
  | star
  /-- one character -/
  | one
  /-- one alphanumeric character or '_' -/
  | word
  /-- one other character -/
  | other
  /-- one alphanumeric character, or nothing at an end of the string -/
  | edgeWord
  /-- one other character, or nothing at an end of the string -/
  | edgeOther
  | lit (c : Char)
  deriving Repr, DecidableEq

/-- Reading a pattern with '*' as the character for any sequence. -/
def parse : List Char → List Tok
  | [] => []
  | ['\\'] => []
  | '\\' :: c :: rest => .lit c :: parse rest
  | '?' :: rest => .one :: parse rest
  | '@' :: rest => .word :: parse rest
  | '&' :: rest => .other :: parse rest
  | '!' :: rest => .edgeOther :: parse rest
  | '|' :: rest => .edgeWord :: parse rest
  | '*' :: rest => .star :: parse rest
  | c :: rest => .lit c :: parse rest

/-- The string can be cut in one piece per token. The flag says that nothing has been consumed yet. -/
inductive Fits (env : Env) : Bool → List Tok → List Char → Prop where
  | done {b} : Fits env b [] []
  | star0 {b ts s} : Fits env b ts s → Fits env b (.star :: ts) s
  | star {b ts c s} : Fits env false (.star :: ts) s → Fits env b (.star :: ts) (c :: s)
  | one {b ts c s} : Fits env false ts s → Fits env b (.one :: ts) (c :: s)
  | word {b ts c s} : env.anum c = true → Fits env false ts s → Fits env b (.word :: ts) (c :: s)
  | other {b ts c s} : env.anum c = false → Fits env false ts s → Fits env b (.other :: ts) (c :: s)
  | lit {b ts p c s} : env.up c = env.up p → Fits env false ts s → Fits env b (.lit p :: ts) (c :: s)
  | edgeWord {b ts c s} : env.anum c = true → Fits env false ts s → Fits env b (.edgeWord :: ts) (c :: s)
  | edgeOther {b ts c s} : env.anum c = false → Fits env false ts s → Fits env b (.edgeOther :: ts) (c :: s)
  | edgeWordStart {ts s} : Fits env true ts s → Fits env true (.edgeWord :: ts) s
  | edgeOtherStart {ts s} : Fits env true ts s → Fits env true (.edgeOther :: ts) s
  | edgeWordEnd {b ts} : Fits env b ts [] → Fits env b (.edgeWord :: ts) []
  | edgeOtherEnd {b ts} : Fits env b ts [] → Fits env b (.edgeOther :: ts) []

/-- The usual cut: any sequence for each `*`, put in words. -/
theorem fits_star_iff (env : Env) (b : Bool) (ts : List Tok) (s : List Char) :
    Fits env b (.star :: ts) s ↔ ∃ x y, s = x ++ y ∧ Fits env (b && x.isEmpty) ts y := by
  constructor
  · intro h
    generalize hts : Tok.star :: ts = ts' at h
    induction h with
    | star0 h _ => injection hts with _ e; subst e; exact ⟨[], _, rfl, by simpa using h⟩
    | @star b ts' c s h ih =>
      injection hts with _ e; subst e
      obtain ⟨x, y, e, hf⟩ := ih rfl
      exact ⟨c :: x, y, by rw [e]; rfl, by simpa using hf⟩
    | done => cases hts
    | _ => injection hts with e; cases e
  · rintro ⟨x, y, rfl, hf⟩
    induction x generalizing b with
    | nil => exact .star0 (by simpa using hf)
    | cons c x ih => exact .star (ih false (by simpa using hf))

def Tok.isEdge : Tok → Bool
  | .edgeWord | .edgeOther => true
  | _ => false

/-- A token that always consumes a character. -/
def Tok.eats : Tok → Bool
  | .star | .edgeWord | .edgeOther => false
  | _ => true

/-- Every `*` is last, or a token after it consumes a character. -/
def StarsOk : List Tok → Prop
  | [] => True
  | .star :: ts => (ts = [] ∨ ∃ t ∈ ts, t.eats = true) ∧ StarsOk ts
  | _ :: ts => StarsOk ts

theorem fits_nil_no_eats {env : Env} {b : Bool} {ts : List Tok} (h : Fits env b ts []) : ∀ t ∈ ts, t.eats = false := by
  generalize hs : ([] : List Char) = s at h
  induction h with
  | done => simp
  | star0 _ ih => intro t ht; rcases List.mem_cons.mp ht with rfl | ht; rfl; exact ih hs t ht
  | edgeWordStart _ ih => intro t ht; rcases List.mem_cons.mp ht with rfl | ht; rfl; exact ih hs t ht
  | edgeOtherStart _ ih => intro t ht; rcases List.mem_cons.mp ht with rfl | ht; rfl; exact ih hs t ht
  | edgeWordEnd _ ih => intro t ht; rcases List.mem_cons.mp ht with rfl | ht; rfl; exact ih hs t ht
  | edgeOtherEnd _ ih => intro t ht; rcases List.mem_cons.mp ht with rfl | ht; rfl; exact ih hs t ht
  | _ => cases hs

/-- The function on tokens: what `grep1` computes on the characters. -/
def run (env : Env) : List Tok → List Char → Nat → Nat → Res Bool
  | [], s, _, _ => .ok (s.isEmpty)
  | .lit q :: rest, s, j, nbeg =>
    match s with
    | [] => .ok false
    | c :: s' => if env.up c = env.up q then run env rest s' (j + 1) nbeg else .ok false
  | .one :: rest, s, j, nbeg =>
    match s with
    | [] => .ok false
    | _ :: s' => run env rest s' (j + 1) nbeg
  | .word :: rest, s, j, nbeg =>
    match s with
    | [] => .ok false
    | c :: s' => if env.anum c then run env rest s' (j + 1) nbeg else .ok false
  | .other :: rest, s, j, nbeg =>
    match s with
    | [] => .ub
    | c :: s' => if env.anum c then .ok false else run env rest s' (j + 1) nbeg
  | .edgeOther :: rest, s, j, nbeg =>
    match s with
    | [] => run env rest [] j nbeg
    | c :: s' => orAtStart (if env.anum c then .ok false else run env rest s' 1 j)
        (nbeg == 0 && j == 0) (run env rest (c :: s') 0 1)
  | .edgeWord :: rest, s, j, nbeg =>
    match s with
    | [] => run env rest [] j nbeg
    | c :: s' => orAtStart (if env.anum c then run env rest s' 1 j else .ok false)
        (nbeg == 0 && j == 0) (run env rest (c :: s') 0 1)
  | .star :: rest, s, j, _ =>
    match rest with
    | [] => .ok true
    | t :: rest' => starLoop (fun s' j' => run env (t :: rest') s' 0 j') s j

/-- A pattern in which a final backslash does not follow a `*` (it would hide that the `*` is last). -/
def NoTail : List Char → Prop
  | [] => True
  | ['\\'] => False
  | '\\' :: _ :: rest => NoTail rest
  | _ :: rest => NoTail rest

theorem parse_ne_nil : ∀ {p : List Char}, NoTail p → p ≠ [] → parse p ≠ [] := by
  intro p h hne
  unfold parse
  split <;> simp_all [NoTail]

/-- The characters drive `grep1` as the tokens drive `run`. -/
theorem grep1_eq_run (env : Env) : ∀ (p : List Char), NoTail p → ∀ s j nbeg,
    grep1 env '*' p s j nbeg = run env (parse p) s j nbeg := by
  intro p
  induction hn : p.length using Nat.strongRecOn generalizing p with
  | ind n ih =>
    intro ht s j nbeg
    unfold parse
    split
    · simp [grep1, run]
    · simp [NoTail] at ht
    · rename_i c rest
      have h := fun s j nbeg => ih rest.length (by simp at hn; omega) rest rfl (by simpa [NoTail] using ht) s j nbeg
      rw [grep1.eq_def]
      cases s <;> simp [h, run]
    · rename_i rest
      have h := fun s j nbeg => ih rest.length (by simp at hn; omega) rest rfl (by simpa [NoTail] using ht) s j nbeg
      rw [grep1.eq_def]
      cases s <;> simp [h, run]
    · rename_i rest
      have h := fun s j nbeg => ih rest.length (by simp at hn; omega) rest rfl (by simpa [NoTail] using ht) s j nbeg
      rw [grep1.eq_def]
      cases s <;> simp [h, run]
    · rename_i rest
      have h := fun s j nbeg => ih rest.length (by simp at hn; omega) rest rfl (by simpa [NoTail] using ht) s j nbeg
      rw [grep1.eq_def]
      cases s <;> simp [h, run]
    · rename_i rest
      have h := fun s j nbeg => ih rest.length (by simp at hn; omega) rest rfl (by simpa [NoTail] using ht) s j nbeg
      rw [grep1.eq_def]
      cases s <;> simp [h, run]
    · rename_i rest
      have h := fun s j nbeg => ih rest.length (by simp at hn; omega) rest rfl (by simpa [NoTail] using ht) s j nbeg
      rw [grep1.eq_def]
      cases s <;> simp [h, run]
    · rename_i rest
      have ht' : NoTail rest := by simpa [NoTail] using ht
      have h := fun s j nbeg => ih rest.length (by simp at hn; omega) rest rfl ht' s j nbeg
      rw [grep1.eq_def]
      cases rest with
      | nil => simp [parse, run]
      | cons q rest' =>
        have hne := parse_ne_nil ht' (by simp)
        have hh : (fun s' j' => grep1 env '*' (q :: rest') s' 0 j') = fun s' j' => run env (parse (q :: rest')) s' 0 j' := by
          funext s' j'; exact h s' 0 j'
        simp only [hh]
        generalize parse (q :: rest') = ts at *
        cases ts with
        | nil => exact absurd rfl hne
        | cons t ts => simp [run]
    · rename_i c rest h2 h3 h4 h5 h6 h7 h8 h9
      have hb : ¬ c = '\\' := by
        intro e
        cases rest with
        | nil => exact h2 e rfl
        | cons d r => exact h3 d r e rfl
      have ht' : NoTail rest := by
        unfold NoTail at ht
        split at ht <;> simp_all
      have h := fun s j nbeg => ih rest.length (by simp at hn; omega) rest rfl ht' s j nbeg
      rw [grep1.eq_def]
      have h4' : ¬ c = '?' := h4
      have h5' : ¬ c = '@' := h5
      have h6' : ¬ c = '&' := h6
      have h7' : ¬ c = '!' := h7
      have h8' : ¬ c = '|' := h8
      have h9' : ¬ c = '*' := h9
      cases s <;> simp [h, run, hb, h4', h5', h6', h7', h8', h9']

def NoEdge (ts : List Tok) : Prop := ∀ t ∈ ts, t.isEdge = false

def headOk (t : Tok) : List Tok → Prop
  | [] => True
  | u :: _ => (t = .star → u ≠ .star) ∧ (t.isEdge = true → u.isEdge = false)

/-- As long as there is a `!` or a `|` further on, no two `*` in a row and no two of `!`, `|` in a row. -/
def Tidy : List Tok → Prop
  | [] => True
  | t :: ts => NoEdge (t :: ts) ∨ (headOk t ts ∧ Tidy ts)

theorem NoEdge.tail {t : Tok} {ts : List Tok} (h : NoEdge (t :: ts)) : NoEdge ts :=
  fun u hu => h u (List.mem_cons_of_mem _ hu)

theorem NoEdge.tidy : ∀ {ts : List Tok}, NoEdge ts → Tidy ts
  | [], _ => trivial
  | _ :: _, h => .inl h

theorem Tidy.tail {t : Tok} {ts : List Tok} (h : Tidy (t :: ts)) : Tidy ts := by
  rcases h with h | h
  · exact h.tail.tidy
  · exact h.2

/-- The flag of the specification agrees with `j` and `nbeg` wherever they matter. -/
def Coh (b : Bool) (j nbeg : Nat) (ts : List Tok) : Prop :=
  NoEdge ts ∨ match ts with
    | [] => True
    | t :: _ => (t.isEdge = true → b = (nbeg == 0 && j == 0)) ∧ (t = .star → b = (j == 0))

theorem coh_succ (j nbeg : Nat) (ts : List Tok) : Coh false (j + 1) nbeg ts := by
  right
  split
  · trivial
  · exact ⟨fun _ => by simp, fun _ => by simp⟩

theorem fits_nil_flag {env : Env} {b : Bool} {ts : List Tok} (b' : Bool) (h : Fits env b ts []) : Fits env b' ts [] := by
  generalize hs : ([] : List Char) = s at h
  induction h generalizing b' with
  | done => exact .done
  | star0 _ ih => exact .star0 (ih b' hs)
  | edgeWordStart _ ih => subst hs; exact .edgeWordEnd (ih b' rfl)
  | edgeOtherStart _ ih => subst hs; exact .edgeOtherEnd (ih b' rfl)
  | edgeWordEnd _ ih => exact .edgeWordEnd (ih b' rfl)
  | edgeOtherEnd _ ih => exact .edgeOtherEnd (ih b' rfl)
  | _ => cases hs

theorem starsOk_tail {t : Tok} {ts : List Tok} (h : StarsOk (t :: ts)) : StarsOk ts := by
  cases t <;> first | exact h | exact h.2

theorem starLoop_fits (env : Env) (ts : List Tok) (m : List Char → Nat → Res Bool)
    (heat : ∃ t ∈ ts, t.eats = true)
    (ok : Bool → Nat → Prop) (hok : ∀ j, ok false (j + 1))
    (hm : ∀ s b j r, ok b j → m s j = .ok r → (r = true ↔ Fits env b ts s)) :
    ∀ s b j r, ok b j → starLoop m s j = .ok r → (r = true ↔ Fits env b (.star :: ts) s) := by
  intro s
  induction s with
  | nil =>
    intro b j r hb h
    simp only [starLoop] at h
    cases h
    simp only [Bool.false_eq_true, false_iff]
    intro hf
    cases hf with
    | star0 hf =>
      obtain ⟨t, ht, he⟩ := heat
      rw [fits_nil_no_eats hf t ht] at he
      cases he
  | cons c s ih =>
    intro b j r hb h
    unfold starLoop at h
    split at h
    · rename_i h1
      cases h
      simp only [true_iff]
      exact .star0 ((hm _ _ _ _ hb h1).mp rfl)
    · rename_i h1
      have h2 := hm _ _ _ _ hb h1
      have h3 := ih false (j + 1) r (hok j) h
      rw [h3]
      constructor
      · exact .star
      · intro hf
        cases hf with
        | star0 hf => have := h2.mpr hf; cases this
        | star hf => exact hf
    · rename_i h1 h2
      cases r <;> simp_all

/-- What `run` answers is what the specification says. -/
theorem run_fits (env : Env) : ∀ (ts : List Tok), StarsOk ts → Tidy ts → ∀ s b j nbeg r, Coh b j nbeg ts →
    run env ts s j nbeg = .ok r → (r = true ↔ Fits env b ts s) := by
  intro ts
  induction ts with
  | nil =>
    intro _ _ s b j nbeg r _ h
    simp only [run] at h
    cases h
    cases s with
    | nil => exact ⟨fun _ => .done, fun _ => rfl⟩
    | cons c s => exact ⟨(fun h => by cases h), fun h => by cases h⟩
  | cons t ts ih =>
    intro hst htd s b j nbeg r hc h
    have ih := ih (starsOk_tail hst) htd.tail
    have ihn : ∀ s j nbeg r, run env ts s (j + 1) nbeg = .ok r → (r = true ↔ Fits env false ts s) :=
      fun s j nbeg r h => ih s false (j + 1) nbeg r (coh_succ j nbeg ts) h
    have edge : t.isEdge = true → (b = (nbeg == 0 && j == 0)) ∧ headOk t ts := by
      intro he
      constructor
      · rcases hc with hc | hc
        · rw [hc t (List.mem_cons_self ..)] at he; cases he
        · exact hc.1 he
      · rcases htd with h | h
        · rw [h t (List.mem_cons_self ..)] at he; cases he
        · exact h.1
    have cohEdge : ∀ nb, t.isEdge = true → Coh true 0 nb ts := by
      intro nb he
      have hh := (edge he).2
      right
      split
      · trivial
      · rename_i u us
        refine ⟨fun hu => ?_, fun _ => rfl⟩
        rw [hh.2 he] at hu; cases hu
    have cohEnd : t.isEdge = true → Coh (j == 0) j nbeg ts := by
      intro he
      have hh := (edge he).2
      right
      split
      · trivial
      · rename_i u us
        refine ⟨fun hu => ?_, fun _ => rfl⟩
        rw [hh.2 he] at hu; cases hu
    cases t with
    | lit q =>
      cases s with
      | nil => simp only [run] at h; cases h; exact ⟨(fun h => by cases h), fun h => by cases h⟩
      | cons c s =>
        simp only [run] at h
        split at h
        · rename_i e
          rw [ihn _ _ _ _ h]
          exact ⟨.lit e, fun hf => by cases hf; assumption⟩
        · rename_i e
          cases h
          exact ⟨(fun h => by cases h), fun hf => by cases hf; exact absurd ‹_› e⟩
    | one =>
      cases s with
      | nil => simp only [run] at h; cases h; exact ⟨(fun h => by cases h), fun h => by cases h⟩
      | cons c s =>
        simp only [run] at h
        rw [ihn _ _ _ _ h]
        exact ⟨.one, fun hf => by cases hf; assumption⟩
    | word =>
      cases s with
      | nil => simp only [run] at h; cases h; exact ⟨(fun h => by cases h), fun h => by cases h⟩
      | cons c s =>
        simp only [run] at h
        split at h
        · rename_i e
          rw [ihn _ _ _ _ h]
          exact ⟨.word e, fun hf => by cases hf; assumption⟩
        · rename_i e
          cases h
          exact ⟨(fun h => by cases h), fun hf => by cases hf; exact absurd ‹_› e⟩
    | other =>
      cases s with
      | nil => simp only [run] at h; cases h
      | cons c s =>
        simp only [run] at h
        split at h
        · rename_i e
          cases h
          exact ⟨(fun h => by cases h), fun hf => by cases hf; simp_all⟩
        · rename_i e
          rw [ihn _ _ _ _ h]
          exact ⟨.other (by simpa using e), fun hf => by cases hf; assumption⟩
    | star =>
      rw [run.eq_def] at h
      dsimp only at h
      split at h
      · cases h
        simp only [true_iff]
        rw [fits_star_iff]
        exact ⟨s, [], by simp, .done⟩
      · rename_i u us _
        rcases hst.1 with he | heat
        · cases he
        · rcases hc with hne | hcc
          · exact starLoop_fits env (u :: us) _ heat (fun _ _ => True) (fun _ => trivial)
              (fun s b j r _ hr => ih s b 0 j r (.inl hne.tail) hr) s b j r trivial h
          · rcases htd with hne | htd
            · exact starLoop_fits env (u :: us) _ heat (fun _ _ => True) (fun _ => trivial)
                (fun s b j r _ hr => ih s b 0 j r (.inl hne.tail) hr) s b j r trivial h
            · refine starLoop_fits env (u :: us) _ heat (fun b j => b = (j == 0)) (fun _ => by simp)
                (fun s b j r hb hr => ih s b 0 j r (.inr ⟨fun _ => by simp [hb], fun hu => ?_⟩) hr) s b j r (hcc.2 rfl) h
              exact absurd hu (htd.1.1 rfl)
    | edgeWord =>
      have hb := (edge rfl).1
      cases s with
      | nil =>
        simp only [run] at h
        rw [ih [] (j == 0) j nbeg r (cohEnd rfl) h]
        constructor
        · exact fun hf => .edgeWordEnd (fits_nil_flag b hf)
        · intro hf
          cases hf with
          | edgeWordStart hf => exact fits_nil_flag _ hf
          | edgeWordEnd hf => exact fits_nil_flag _ hf
      | cons c s =>
        simp only [run, orAtStart] at h
        by_cases ha : env.anum c = true
        · rw [if_pos ha] at h
          split at h
          · rename_i h1
            cases h
            have := (ihn _ 0 _ _ h1).mp rfl
            exact ⟨fun _ => .edgeWord ha this, fun _ => rfl⟩
          · rename_i h1
            have h1' := ihn _ 0 _ _ h1
            split at h
            · rename_i h0
              have hbt : b = true := by rw [hb, h0]
              subst hbt
              rw [ih _ true 0 1 r (cohEdge 1 rfl) h]
              constructor
              · exact .edgeWordStart
              · intro hf
                cases hf with
                | edgeWord _ hf => exact absurd (h1'.mpr hf) (by simp)
                | edgeWordStart hf => exact hf
            · rename_i h0
              have hbt : b = false := by rw [hb]; simpa using h0
              subst hbt
              cases h
              constructor
              · intro h; cases h
              · intro hf
                cases hf with
                | edgeWord _ hf => exact absurd (h1'.mpr hf) (by simp)
          · cases r <;> simp_all
        · rw [if_neg ha] at h
          split at h
          · rename_i h1; cases h1
          · split at h
            · rename_i h0
              have hbt : b = true := by rw [hb, h0]
              subst hbt
              rw [ih _ true 0 1 r (cohEdge 1 rfl) h]
              constructor
              · exact .edgeWordStart
              · intro hf
                cases hf with
                | edgeWord hh hf => exact absurd hh ha
                | edgeWordStart hf => exact hf
            · rename_i h0
              have hbt : b = false := by rw [hb]; simpa using h0
              subst hbt
              cases h
              constructor
              · intro h; cases h
              · intro hf
                cases hf with
                | edgeWord hh hf => exact absurd hh ha
          · cases r <;> simp_all
    | edgeOther =>
      have hb := (edge rfl).1
      cases s with
      | nil =>
        simp only [run] at h
        rw [ih [] (j == 0) j nbeg r (cohEnd rfl) h]
        constructor
        · exact fun hf => .edgeOtherEnd (fits_nil_flag b hf)
        · intro hf
          cases hf with
          | edgeOtherStart hf => exact fits_nil_flag _ hf
          | edgeOtherEnd hf => exact fits_nil_flag _ hf
      | cons c s =>
        simp only [run, orAtStart] at h
        by_cases ha : env.anum c = false
        · rw [if_neg (by simp [ha])] at h
          split at h
          · rename_i h1
            cases h
            have := (ihn _ 0 _ _ h1).mp rfl
            exact ⟨fun _ => .edgeOther ha this, fun _ => rfl⟩
          · rename_i h1
            have h1' := ihn _ 0 _ _ h1
            split at h
            · rename_i h0
              have hbt : b = true := by rw [hb, h0]
              subst hbt
              rw [ih _ true 0 1 r (cohEdge 1 rfl) h]
              constructor
              · exact .edgeOtherStart
              · intro hf
                cases hf with
                | edgeOther _ hf => exact absurd (h1'.mpr hf) (by simp)
                | edgeOtherStart hf => exact hf
            · rename_i h0
              have hbt : b = false := by rw [hb]; simpa using h0
              subst hbt
              cases h
              constructor
              · intro h; cases h
              · intro hf
                cases hf with
                | edgeOther _ hf => exact absurd (h1'.mpr hf) (by simp)
          · cases r <;> simp_all
        · rw [if_pos (by simpa using ha)] at h
          split at h
          · rename_i h1; cases h1
          · split at h
            · rename_i h0
              have hbt : b = true := by rw [hb, h0]
              subst hbt
              rw [ih _ true 0 1 r (cohEdge 1 rfl) h]
              constructor
              · exact .edgeOtherStart
              · intro hf
                cases hf with
                | edgeOther hh hf => exact absurd hh ha
                | edgeOtherStart hf => exact hf
            · rename_i h0
              have hbt : b = false := by rw [hb]; simpa using h0
              subst hbt
              cases h
              constructor
              · intro h; cases h
              · intro hf
                cases hf with
                | edgeOther hh hf => exact absurd hh ha
          · cases r <;> simp_all

theorem starLoop_ok (m : List Char → Nat → Res Bool) (hm : ∀ s j, ∃ r, m s j = .ok r) :
    ∀ s j, ∃ r, starLoop m s j = .ok r := by
  intro s
  induction s with
  | nil => exact fun j => ⟨_, rfl⟩
  | cons c s ih =>
    intro j
    obtain ⟨r, h⟩ := hm (c :: s) j
    unfold starLoop
    rw [h]
    cases r
    · exact ih (j + 1)
    · exact ⟨_, rfl⟩

theorem orAtStart_ok {a : Res Bool} {b : Bool} {c : Res Bool} (ha : ∃ r, a = .ok r) (hc : ∃ r, c = .ok r) :
    ∃ r, orAtStart a b c = .ok r := by
  obtain ⟨r, rfl⟩ := ha
  obtain ⟨r', rfl⟩ := hc
  cases r <;> simp only [orAtStart]
  · split <;> exact ⟨_, rfl⟩
  · exact ⟨_, rfl⟩

/-- Without `&` nothing is read behind the string. -/
theorem run_ok (env : Env) : ∀ (ts : List Tok), Tok.other ∉ ts → ∀ s j nbeg, ∃ r, run env ts s j nbeg = .ok r := by
  intro ts
  induction ts with
  | nil => exact fun _ s _ _ => ⟨_, rfl⟩
  | cons t ts ih =>
    intro hn s j nbeg
    have ih := ih (fun h => hn (List.mem_cons_of_mem _ h))
    cases t with
    | other => exact absurd (List.mem_cons_self ..) hn
    | star =>
      rw [run.eq_def]
      dsimp only
      split
      · exact ⟨_, rfl⟩
      · exact starLoop_ok _ (fun s j => ih s 0 j) s j
    | one => cases s with
      | nil => exact ⟨_, rfl⟩
      | cons c s => exact ih _ _ _
    | lit q => cases s with
      | nil => exact ⟨_, rfl⟩
      | cons c s => simp only [run]; split; exact ih _ _ _; exact ⟨_, rfl⟩
    | word => cases s with
      | nil => exact ⟨_, rfl⟩
      | cons c s => simp only [run]; split; exact ih _ _ _; exact ⟨_, rfl⟩
    | edgeWord => cases s with
      | nil => exact ih _ _ _
      | cons c s =>
        simp only [run]
        refine orAtStart_ok ?_ (ih _ _ _)
        split; exact ih _ _ _; exact ⟨_, rfl⟩
    | edgeOther => cases s with
      | nil => exact ih _ _ _
      | cons c s =>
        simp only [run]
        refine orAtStart_ok ?_ (ih _ _ _)
        split; exact ⟨_, rfl⟩; exact ih _ _ _

/-! ## The theorems -/

/-- A match is answered exactly when the string fits the pattern, for patterns in which every `*` is last or followed
    somewhere by a token that consumes a character, in which `!` and `|` are not doubled, and which do not end with a
    lone backslash. What is missing for the full claim is refuted below. -/
theorem C23_grep_partial (env : Env) (p s : List Char) (hp : NoTail p) (hst : StarsOk (parse p)) (htd : Tidy (parse p))
    (r : Bool) (h : grep env '*' p s = .ok r) : r = true ↔ Fits env true (parse p) s := by
  rw [grep, grep1_eq_run env p hp] at h
  refine run_fits env _ hst htd s true 0 0 r ?_ h
  right
  split
  · trivial
  · exact ⟨fun _ => rfl, fun _ => rfl⟩

/-- Without `&` the answer is defined for every string. -/
theorem C23_grep_total (env : Env) (p s : List Char) (hp : NoTail p) (ha : Tok.other ∉ parse p) :
    ∃ r, grep env '*' p s = .ok r := by
  rw [grep, grep1_eq_run env p hp]
  exact run_ok env _ ha s 0 0

/-- Patterns made of `*`, `?` and ordinary characters. -/
def Simple (p : List Char) : Prop := ∀ c ∈ p, c ∉ ['\\', '@', '&', '!', '|']

/-- The cuts of the property: `*` any sequence, `?` one character, any other character itself up to case. -/
def Cut (env : Env) : List Char → List Char → Prop
  | [], s => s = []
  | p :: ps, s =>
    if p = '*' then ∃ x y, s = x ++ y ∧ Cut env ps y
    else ∃ c y, s = c :: y ∧ (p = '?' ∨ env.up c = env.up p) ∧ Cut env ps y

theorem parse_cons_simple {c : Char} {rest : List Char} (h : Simple (c :: rest)) :
    parse (c :: rest) = (if c = '?' then .one else if c = '*' then .star else .lit c) :: parse rest := by
  have hc := h c (List.mem_cons_self ..)
  simp only [List.mem_cons, List.not_mem_nil, or_false, not_or] at hc
  obtain ⟨h1, h2, h3, h4, h5⟩ := hc
  conv => lhs; unfold parse
  split <;> simp_all

theorem Simple.tail {c : Char} {p : List Char} (h : Simple (c :: p)) : Simple p := fun d hd => h d (List.mem_cons_of_mem _ hd)

theorem Simple.noTail : ∀ {p : List Char}, Simple p → NoTail p
  | [], _ => trivial
  | c :: p, h => by
    have hc := h c (List.mem_cons_self ..)
    have ih := Simple.noTail h.tail
    unfold NoTail
    split <;> simp_all

theorem Simple.noEdge : ∀ {p : List Char}, Simple p → NoEdge (parse p) ∧ Tok.other ∉ parse p
  | [], _ => ⟨fun t ht => by simp [parse] at ht, by simp [parse]⟩
  | c :: p, h => by
    have ih := Simple.noEdge h.tail
    rw [parse_cons_simple h]
    constructor
    · intro t ht
      rcases List.mem_cons.mp ht with rfl | ht
      · split
        · rfl
        · split <;> rfl
      · exact ih.1 t ht
    · intro ht
      rcases List.mem_cons.mp ht with e | ht
      · split at e
        · cases e
        · split at e <;> cases e
      · exact ih.2 ht

theorem fits_cut (env : Env) : ∀ (p : List Char), Simple p → ∀ b s, Fits env b (parse p) s ↔ Cut env p s
  | [], _, b, s => by
    simp only [parse, Cut]
    exact ⟨fun h => by cases h; rfl, fun h => h ▸ .done⟩
  | c :: p, h, b, s => by
    have ih := fits_cut env p h.tail
    rw [parse_cons_simple h, Cut]
    by_cases hq : c = '?'
    · subst hq
      simp only [if_true, if_neg (show ¬ '?' = '*' by decide)]
      constructor
      · intro hf; cases hf with
        | one hf => exact ⟨_, _, rfl, .inl trivial, (ih _ _).mp hf⟩
      · rintro ⟨d, y, rfl, _, hf⟩
        exact .one ((ih _ _).mpr hf)
    · by_cases hs : c = '*'
      · subst hs
        simp only [if_true, if_neg hq]
        rw [fits_star_iff]
        constructor
        · rintro ⟨x, y, e, hf⟩; exact ⟨x, y, e, (ih _ _).mp hf⟩
        · rintro ⟨x, y, e, hf⟩; exact ⟨x, y, e, (ih _ _).mpr hf⟩
      · simp only [if_neg hq, if_neg hs]
        constructor
        · intro hf; cases hf with
          | lit e hf => exact ⟨_, _, rfl, .inr e, (ih _ _).mp hf⟩
        · rintro ⟨d, y, rfl, e, hf⟩
          exact .lit (e.resolve_left hq) ((ih _ _).mpr hf)

/-- No `*` before a last `*` with nothing but `*` between. -/
def NoStarRun : List Char → Prop
  | [] => True
  | c :: p => (c = '*' → p = [] ∨ ∃ d ∈ p, d ≠ '*') ∧ NoStarRun p

theorem Simple.starsOk : ∀ {p : List Char}, Simple p → NoStarRun p → StarsOk (parse p)
  | [], _, _ => trivial
  | c :: p, h, hr => by
    have ih := Simple.starsOk h.tail hr.2
    rw [parse_cons_simple h]
    by_cases hq : c = '?'
    · rw [if_pos hq]; exact ih
    · by_cases hs : c = '*'
      · rw [if_neg hq, if_pos hs]
        refine ⟨?_, ih⟩
        rcases hr.1 hs with rfl | ⟨d, hd, hne⟩
        · exact .inl rfl
        · right
          have : ∀ p : List Char, Simple p → d ∈ p → ∃ t ∈ parse p, t.eats = true := by
            intro p
            induction p with
            | nil => intro _ hd; cases hd
            | cons e p ih =>
              intro h hd
              rw [parse_cons_simple h]
              rcases List.mem_cons.mp hd with rfl | hd
              · refine ⟨_, List.mem_cons_self .., ?_⟩
                split
                · rfl
                · rfl
              · obtain ⟨t, ht, he⟩ := ih h.tail hd
                exact ⟨t, List.mem_cons_of_mem _ ht, he⟩
          exact this p h.tail hd
      · rw [if_neg hq, if_neg hs]; exact ih

/-- The claim itself, for patterns of `*`, `?` and ordinary characters that do not end with several `*`: the answer is
    always defined, and it is yes exactly when the name can be cut. -/
theorem C23_simple_partial (env : Env) (p s : List Char) (h : Simple p) (hr : NoStarRun p) :
    ∃ r, grep env '*' p s = .ok r ∧ (r = true ↔ Cut env p s) := by
  obtain ⟨r, e⟩ := C23_grep_total env p s h.noTail h.noEdge.2
  exact ⟨r, e, (C23_grep_partial env p s h.noTail (h.starsOk hr) h.noEdge.1.tidy r e).trans (fits_cut env p h true s)⟩

/-- Searching a database by name returns its names that fit, in order, and no other. -/
theorem C23_names_partial (env : Env) (p : List Char) (h : Simple p) (hr : NoStarRun p) (names : List Name) :
    ∃ l, grepNames env '*' p names = .ok l ∧ l.Sublist names ∧ ∀ n ∈ names, (n ∈ l ↔ Cut env p n) := by
  unfold grepNames
  split
  · rename_i e
    refine ⟨names, rfl, List.Sublist.refl _, fun n hn => ⟨fun _ => ?_, fun _ => hn⟩⟩
    subst e
    exact ⟨n, [], by simp, rfl⟩
  · have : ∀ names : List Name, ∃ l, grepLoop env '*' p names = .ok l ∧ l.Sublist names ∧
        (∀ n ∈ l, Cut env p n) ∧ ∀ n ∈ names, Cut env p n → n ∈ l := by
      intro names
      induction names with
      | nil => exact ⟨[], rfl, List.Sublist.refl _, by simp, by simp⟩
      | cons n names ih =>
        obtain ⟨l, e, hs, h1, h2⟩ := ih
        obtain ⟨r, er, hcut⟩ := C23_simple_partial env p n h hr
        refine ⟨if r then n :: l else l, ?_, ?_, ?_, ?_⟩
        · simp [grepLoop, er, e, Res.bind]
        · cases r
          · exact hs.cons _
          · exact hs.cons_cons _
        · cases r
          · exact h1
          · intro m hm
            rcases List.mem_cons.mp hm with rfl | hm
            · exact hcut.mp rfl
            · exact h1 m hm
        · intro m hm hc
          cases r
          · rcases List.mem_cons.mp hm with rfl | hm
            · exact absurd (hcut.mpr hc) (by simp)
            · exact h2 m hm hc
          · rcases List.mem_cons.mp hm with rfl | hm
            · exact List.mem_cons_self ..
            · exact List.mem_cons_of_mem _ (h2 m hm hc)
    obtain ⟨l, e, hs, h1, h2⟩ := this names
    exact ⟨l, e, hs, fun n hn => ⟨h1 n, h2 n hn⟩⟩

/-- A list of patterns gives, pattern after pattern, the names that fit; a word without `*` or `?`, or beginning with a
    quote, stands for itself whether the database holds it or not. -/
theorem C23_expand_partial (env : Env) (names : List Name) (ps : List (List Char))
    (h : ∀ p ∈ ps, Simple p ∧ NoStarRun p) :
    ∃ l, expand env '*' names ps = .ok l ∧ ∀ n, n ∈ l ↔ ∃ p ∈ ps, p ≠ [] ∧
      if p.head? ≠ some '"' ∧ ('*' ∈ p ∨ '?' ∈ p) then n ∈ names ∧ Cut env p n else n = p := by
  induction ps with
  | nil => exact ⟨[], rfl, by simp⟩
  | cons p ps ih =>
    obtain ⟨l, e, hl⟩ := ih (fun q hq => h q (List.mem_cons_of_mem _ hq))
    have one : ∃ l1, expandOne env '*' names p = .ok l1 ∧ ∀ n, n ∈ l1 ↔ p ≠ [] ∧
        if p.head? ≠ some '"' ∧ ('*' ∈ p ∨ '?' ∈ p) then n ∈ names ∧ Cut env p n else n = p := by
      obtain ⟨hs, hr⟩ := h p (List.mem_cons_self ..)
      cases p with
      | nil => exact ⟨[], rfl, by simp⟩
      | cons c cs =>
        simp only [expandOne]
        by_cases hc : c ≠ '"' ∧ ((c :: cs).contains '*' = true ∨ (c :: cs).contains '?' = true)
        · rw [if_pos hc]
          obtain ⟨l1, e1, hsub, h1⟩ := C23_names_partial env (c :: cs) hs hr names
          refine ⟨l1, e1, fun n => ?_⟩
          have hc' : (c :: cs).head? ≠ some '"' ∧ ('*' ∈ c :: cs ∨ '?' ∈ c :: cs) := by
            refine ⟨by simpa using hc.1, ?_⟩
            simpa only [List.contains_iff_mem] using hc.2
          rw [if_pos hc']
          exact ⟨fun hn => ⟨by simp, hsub.subset hn, (h1 n (hsub.subset hn)).mp hn⟩, fun hn => (h1 n hn.2.1).mpr hn.2.2⟩
        · rw [if_neg hc]
          refine ⟨[c :: cs], rfl, fun n => ?_⟩
          have hc' : ¬ ((c :: cs).head? ≠ some '"' ∧ ('*' ∈ c :: cs ∨ '?' ∈ c :: cs)) := by
            intro hh
            refine hc ⟨by simpa using hh.1, ?_⟩
            simpa only [List.contains_iff_mem] using hh.2
          rw [if_neg hc']
          simp
    obtain ⟨l1, e1, h1⟩ := one
    refine ⟨l1 ++ l, by simp [expand, e1, e, Res.bind], fun n => ?_⟩
    rw [List.mem_append, h1, hl]
    constructor
    · rintro (⟨a, b⟩ | ⟨q, hq, hh⟩)
      · exact ⟨p, List.mem_cons_self .., a, b⟩
      · exact ⟨q, List.mem_cons_of_mem _ hq, hh⟩
    · rintro ⟨q, hq, hh⟩
      rcases List.mem_cons.mp hq with rfl | hq
      · exact .inl hh
      · exact .inr ⟨q, hq, hh⟩

/-! ## What the full claim misses -/

/-- "A**" does not match "A", though "A" can be cut with two empty sequences. -/
theorem C23_double_star_counterexample :
    grep noCase '*' ['A', '*', '*'] ['A'] = .ok false ∧ Cut noCase ['A', '*', '*'] ['A'] := by
  refine ⟨by decide +kernel, ['A'].head (by simp), [], rfl, .inr rfl, [], [], rfl, [], [], rfl, rfl⟩

/-- "A*!" does not match "A", though `!` may stand for nothing at the end. -/
theorem C23_star_edge_counterexample :
    grep noCase '*' ['A', '*', '!'] ['A'] = .ok false ∧ Fits noCase true (parse ['A', '*', '!']) ['A'] :=
  ⟨by decide +kernel, .lit rfl (.star0 (.edgeOtherEnd .done))⟩

/-- "!!A" does not match "A". -/
theorem C23_double_edge_counterexample :
    grep noCase '*' ['!', '!', 'A'] ['A'] = .ok false ∧ Fits noCase true (parse ['!', '!', 'A']) ['A'] :=
  ⟨by decide +kernel, .edgeOtherStart (.edgeOtherStart (.lit rfl .done))⟩

/-- "**!A" matches "xA" although the `!` stands for nothing in the middle of the string. -/
theorem C23_star_start_counterexample :
    grep noCase '*' ['*', '*', '!', 'A'] ['x', 'A'] = .ok true ∧ ¬ Fits noCase true (parse ['*', '*', '!', 'A']) ['x', 'A'] := by
  refine ⟨by decide +kernel, fun h => ?_⟩
  simp only [parse] at h
  rw [fits_star_iff] at h
  obtain ⟨x, y, e, h⟩ := h
  rw [fits_star_iff] at h
  obtain ⟨x', y', rfl, h⟩ := h
  rw [← List.append_assoc] at e
  have hb : (true && x.isEmpty && x'.isEmpty) = (x ++ x').isEmpty := by cases x <;> simp
  rw [hb] at h
  generalize x ++ x' = z at e h
  match z, e with
  | [], e =>
    simp only [List.nil_append] at e
    subst e
    simp only [List.isEmpty_nil] at h
    cases h with
    | edgeOther ha _ => exact absurd ha (by decide +kernel)
    | edgeOtherStart h => cases h with
      | lit e _ => exact absurd e (by decide +kernel)
  | [_], e =>
    simp only [List.cons_append, List.nil_append, List.cons.injEq] at e
    obtain ⟨_, rfl⟩ := e
    simp only [List.isEmpty_cons] at h
    cases h with
    | edgeOther ha _ => exact absurd ha (by decide +kernel)
  | [_, _], e =>
    simp only [List.cons_append, List.nil_append, List.cons.injEq] at e
    obtain ⟨_, _, rfl⟩ := e
    cases h with
    | edgeOtherEnd h => cases h
  | _ :: _ :: _ :: _, e => simp at e

/-- `&` at the end of the string reads behind it. -/
theorem C23_other_end_undefined (env : Env) : grep env '*' ['&'] [] = .ub := by
  simp [grep, grep1]

/-- A single backslash at the end of a pattern hides that the `*` before it is last. -/
theorem C23_backslash_counterexample :
    grep noCase '*' ['A', '*', '\\'] ['A', 'B'] = .ok false ∧ Fits noCase true (parse ['A', '*', '\\']) ['A', 'B'] :=
  ⟨by decide +kernel, .lit rfl (.star (.star0 .done))⟩

/-! ## The hypotheses are met -/

example : Simple "A*B?*".toList ∧ NoStarRun "A*B?*".toList := by
  constructor
  · intro c hc; revert c; decide
  · simp [NoStarRun]

example : grep noCase '*' "a*B?*".toList "AxxbBy".toList = .ok true := by decide +kernel
example : grep noCase '*' "a*B?*".toList "Axxb".toList = .ok false := by decide +kernel
example : grepNames noCase '*' "A?".toList ["A1".toList, "A12".toList, "B1".toList, "AZ".toList]
    = .ok ["A1".toList, "AZ".toList] := by decide +kernel
example : expand noCase '*' ["A1".toList, "A12".toList] ["A?".toList, "ZZ".toList, [], "a*".toList]
    = .ok ["A1".toList, "ZZ".toList, "A1".toList, "A12".toList] := by decide +kernel
example : let p := "*!A1!*".toList
    NoTail p ∧ StarsOk (parse p) ∧ Tidy (parse p) ∧ Tok.other ∉ parse p := by
  refine ⟨by simp [NoTail], ?_, ?_, ?_⟩
  all_goals simp [parse, StarsOk, Tidy, headOk, NoEdge, Tok.eats, Tok.isEdge]
example : grep noCase '*' "*!A1!*".toList "B+A1".toList = .ok true
    ∧ grep noCase '*' "*!A1!*".toList "BA1".toList = .ok false
    ∧ grep noCase '*' "*!A1!*".toList "A1".toList = .ok true := by decide +kernel

end Iode.Grep
