import Verif.Lemmas.AscText
import Verif.Lemmas.File
import Verif.Lemmas.SMap

/-!
# C49  Comments, lists and identities are restored from their text form

See `properties.jsonl`.  Lines, strings and texts are those of Spec/AscText.lean.
-/
namespace Iode
namespace Asc
namespace Texts
open Yy Written
open Lec (kept Clean)
open Lec.Written (Gap NameEnd NameCh Digit White)

/-! ## Lines -/

/-- Every text is cut into lines in exactly one way. -/
theorem C49_lines (t : Yy.Text) : ∃! u, Wrapped 60 t u :=
  ⟨wrap 60 t, wrap_iff.1 rfl, fun _ h => (wrap_iff.2 h).symm⟩

theorem ink_blanks {b : Yy.Text} (h : ∀ x ∈ b, Blank x) : ink b = [] := by
  rw [ink, List.filter_eq_nil_iff]
  intro x hx
  simpa using h x hx

theorem ink_append (a b : Yy.Text) : ink (a ++ b) = ink a ++ ink b := by
  rw [ink, List.filter_append]
  rfl

theorem ink_nl (a : Yy.Text) : ink ('\n' :: a) = ink a := by
  rw [ink, List.filter_cons_of_neg (by decide)]
  rfl

theorem join_cons (l m : Yy.Text) (ls : List Yy.Text) : joinLines (l :: m :: ls) = l ++ '\n' :: joinLines (m :: ls) := rfl

theorem ink_join (ls : List Yy.Text) : ink (List.intercalate ['\n'] ls) = (ls.map ink).flatten := by
  rw [← join_lines]
  induction ls with
  | nil => rfl
  | cons l ls ih =>
    cases ls with
    | nil => simp [joinLines]
    | cons m ls =>
      rw [join_cons, ink_append, ink_nl, ih]
      rfl

theorem ink_lines {lg : Nat} {t : Yy.Text} {ls : List Yy.Text} (h : Lines lg t ls) : (ls.map ink).flatten = ink t := by
  induction h with
  | none hb => rw [ink_blanks hb]; rfl
  | last hb _ _ => rw [ink_append, ink_blanks hb]; simp
  | @sep b c l d r ls hb _ _ _ _ _ _ ih =>
    rw [ink_append, ink_blanks hb, List.map_cons, List.flatten_cons, ih, List.nil_append, ← ink_append]
    simp
  | @hard b c l r ls hb _ _ _ _ _ ih =>
    rw [ink_append, ink_blanks hb, List.map_cons, List.flatten_cons, ih, List.nil_append, ← ink_append]
    simp

/-- No character that is seen is lost, none is added. -/
theorem C49_ink {t u : Yy.Text} (h : Wrapped 60 t u) : ink u = ink t := by
  rcases h with ⟨_, rfl⟩ | ⟨_, ls, h, rfl⟩
  · rfl
  · rw [ink_join, ink_lines h]

/-- Lines have at most 60 characters. -/
theorem C49_line_length {t u : Yy.Text} (h : Wrapped 60 t u) (hn : '\n' ∉ t) :
    ∃ ls, u = List.intercalate ['\n'] ls ∧ ∀ l ∈ ls, l.length ≤ 60 := by
  rcases h with ⟨h, _⟩ | ⟨_, ls, h, rfl⟩
  · exact absurd h hn
  · refine ⟨ls, rfl, ?_⟩
    clear hn
    rename_i hn
    clear hn
    induction h with
    | none => simp
    | last _ _ h => simpa using h
    | sep _ _ _ h _ _ _ ih => simpa using ⟨by omega, ih⟩
    | hard _ _ h _ _ _ ih => simpa using ⟨by omega, ih⟩

/-- The end of a line is behind a separator unless there is none in 60 characters. -/
theorem C49_line_end {t : Yy.Text} {l m : Yy.Text} {ls : List Yy.Text} (h : Lines 60 t (l :: m :: ls)) :
    (∃ a d, l = a ++ [d] ∧ a ≠ [] ∧ Sep d) ∨ (l.length = 60 ∧ ∀ x ∈ l.tail, ¬ Sep x) := by
  cases h with
  | @sep b c l d r _ _ _ hd _ _ _ _ => exact .inl ⟨c :: l, d, rfl, by simp, hd⟩
  | @hard b c l r _ _ _ h1 _ h2 _ => exact .inr ⟨by simpa using h1, by simpa using h2⟩

/-- Short texts are not changed. -/
theorem C49_short {t : Yy.Text} (hl : t.length ≤ 60) (hb : ∀ c, t.head? = some c → ¬ Blank c) : Wrapped 60 t t := by
  by_cases h : '\n' ∈ t
  · exact .inl ⟨h, rfl⟩
  · refine .inr ⟨h, ?_⟩
    cases t with
    | nil => exact ⟨[], .none (by simp), rfl⟩
    | cons c l =>
      refine ⟨[c :: l], ?_, by simp⟩
      exact Lines.last (b := []) (by simp) (hb c rfl) (by simpa using hl)

theorem lines_sub {lg : Nat} {t : Yy.Text} {ls : List Yy.Text} (h : Lines lg t ls) : ∀ l ∈ ls, l <:+: t := by
  induction h with
  | none => simp
  | @last b c l => 
    intro x hx
    simp at hx
    subst hx
    exact ⟨b, [], by simp⟩
  | @sep b c l d r ls _ _ _ _ _ _ _ ih =>
    intro x hx
    rcases List.mem_cons.1 hx with rfl | hx
    · exact ⟨b, r, by simp⟩
    · obtain ⟨p, q, e⟩ := ih x hx
      exact ⟨b ++ c :: (l ++ d :: p), q, by rw [← e]; simp⟩
  | @hard b c l r ls _ _ _ _ _ _ ih =>
    intro x hx
    rcases List.mem_cons.1 hx with rfl | hx
    · exact ⟨b, r, by simp⟩
    · obtain ⟨p, q, e⟩ := ih x hx
      exact ⟨b ++ c :: (l ++ p), q, by rw [← e]; simp⟩

theorem wrapped_mem {lg : Nat} {t u : Yy.Text} (h : Wrapped lg t u) : ∀ c ∈ u, c ∈ t ∨ c = '\n' := by
  rcases h with ⟨_, rfl⟩ | ⟨_, ls, h, rfl⟩
  · exact fun c h => .inl h
  · have := lines_sub h
    clear h
    rw [← join_lines]
    induction ls with
    | nil => simp [joinLines]
    | cons l ls ih =>
      have h1 : ∀ c ∈ l, c ∈ t := fun c hc => (this l (by simp)).subset hc
      have h2 := ih fun x hx => this x (by simp [hx])
      cases ls with
      | nil => intro c hc; exact .inl (h1 c hc)
      | cons m ls =>
        intro c hc
        rw [join_cons] at hc
        rcases List.mem_append.1 hc with hc | hc
        · exact .inl (h1 c hc)
        · rcases List.mem_cons.1 hc with hc | hc
          · exact .inr hc
          · exact h2 c hc

theorem wrapped_carets {lg : Nat} {t u : Yy.Text} (h : Wrapped lg t u) (ht : Carets t) : Carets u := by
  rcases h with ⟨_, rfl⟩ | ⟨_, ls, h, rfl⟩
  · exact ht
  · have hc : ∀ l ∈ ls, Carets l := fun l hl => List.IsChain.infix ht (lines_sub h l hl)
    clear h
    rw [← join_lines]
    induction ls with
    | nil => simp [joinLines, Carets]
    | cons l ls ih =>
      have h2 := ih fun x hx => hc x (by simp [hx])
      cases ls with
      | nil => exact hc l (by simp)
      | cons m ls =>
        rw [join_cons]
        refine List.IsChain.append (hc l (by simp)) ?_ ?_
        · refine List.isChain_cons.2 ⟨?_, h2⟩
          intro y _ e
          exact absurd e (by decide)
        · intro x _ y hy _
          cases hy
          decide

/-- What was cut into lines is not changed any more. -/
theorem wrapped_again {t u : Yy.Text} (h : Wrapped 60 t u) : Wrapped 60 u u := by
  rcases h with ⟨h, rfl⟩ | ⟨_, ls, h, rfl⟩
  · exact .inl ⟨h, rfl⟩
  · cases h with
    | none => exact .inr ⟨by decide, [], .none (by simp), rfl⟩
    | @last b c l hb hc hl =>
      have : List.intercalate ['\n'] [c :: l] = c :: l := by simp
      rw [this]
      exact C49_short (by simpa using hl) (by rintro x hx; cases hx; exact hc)
    | @sep b c l d r ls hb hc hd h1 h2 h3 h4 =>
      cases ls with
      | nil =>
        have : List.intercalate ['\n'] [c :: (l ++ [d])] = c :: (l ++ [d]) := by simp
        rw [this]
        exact C49_short (by simpa using h1) (by rintro x hx; cases hx; exact hc)
      | cons m ls =>
        refine .inl ⟨?_, rfl⟩
        rw [← join_lines, join_cons]
        simp
    | @hard b c l r ls hb hc h1 h2 h3 h4 =>
      cases ls with
      | nil =>
        have : List.intercalate ['\n'] [c :: l] = c :: l := by simp
        rw [this]
        exact C49_short (by simp; omega) (by rintro x hx; cases hx; exact hc)
      | cons m ls =>
        refine .inl ⟨?_, rfl⟩
        rw [← join_lines, join_cons]
        simp

/-! ## Loading -/

/-- `v` is the text `o` of the code page in UTF-8. -/
def Decoded (cv : Conv) (o v : Yy.Text) : Prop := (o = [] ∧ v = []) ∨ (o ≠ [] ∧ cv.dec o = some v)

/-- `o` is the UTF-8 text `t` in the code page. -/
def Coded (cv : Conv) (t o : Yy.Text) : Prop := (t = [] ∧ o = []) ∨ (t ≠ [] ∧ cv.enc t = some o)

theorem toUtf8_decoded {cv : Conv} {o v : Yy.Text} (h : Decoded cv o v) (hn : ∀ c ∈ o, c.toNat ≠ 0) : toUtf8 cv o = some v := by
  rw [toUtf8, cstr_self hn]
  rcases h with ⟨rfl, rfl⟩ | ⟨h1, h2⟩
  · rfl
  · rw [if_neg (by simpa using h1), h2]

theorem toOem_coded {cv : Conv} {t o : Yy.Text} (h : Coded cv t o) (hn : ∀ c ∈ t, c.toNat ≠ 0) : toOem cv t = some o := by
  rw [toOem, cstr_self hn]
  rcases h with ⟨rfl, rfl⟩ | ⟨h1, h2⟩
  · rfl
  · rw [if_neg (by simpa using h1), h2]

theorem wrapped_noNul {t u : Yy.Text} (h : Wrapped 60 t u) (hn : ∀ c ∈ t, c.toNat ≠ 0) : ∀ c ∈ u, c.toNat ≠ 0 := by
  intro c hc
  rcases wrapped_mem h c hc with h1 | rfl
  · exact hn c h1
  · decide

theorem putText_key {ty : ObjType} (ht : IsText ty) {cv : Conv} {w t u v : Yy.Text} (hw : ObjName w) (hn : ∀ c ∈ t, c.toNat ≠ 0)
    (h1 : Wrapped 60 t u) (h2 : Decoded cv u v) (db : SMap Yy.Text) :
    putText ty cv w (wrap 60 (cstr t)) db = SMap.insert (keyOf (upOf ty) w) v db := by
  rw [cstr_self hn, wrap_iff.2 h1, putText, toUtf8_decoded h2 (wrapped_noNul h1 hn)]
  obtain ⟨k1, k2⟩ := key_name ht hw
  simp only
  rw [k1, if_pos k2]

/-- A definition: the name, the content of the string, and what is to be stored. -/
structure Def where
  name : Yy.Text
  content : Yy.Text
  stored : Yy.Text

/-- What is to be stored is the content in lines and in UTF-8. -/
def Def.Ok (cv : Conv) (d : Def) : Prop := ∃ u, Wrapped 60 d.content u ∧ Decoded cv u d.stored

theorem putAll_key {ty : ObjType} (ht : IsText ty) {cv : Conv} {defs : List Def} (hw : ∀ d ∈ defs, ObjName d.name)
    (hn : ∀ d ∈ defs, ∀ c ∈ d.content, c.toNat ≠ 0) (hd : ∀ d ∈ defs, d.Ok cv) (db : SMap Yy.Text) :
    putAll ty cv (defs.map fun d => (d.name, d.content)) db =
      (defs.map fun d => (d.name, d.stored)).foldl (fun db e => SMap.insert (keyOf (upOf ty) e.1) e.2 db) db := by
  induction defs generalizing db with
  | nil => rfl
  | cons d r ih =>
    obtain ⟨u, h1, h2⟩ := hd d (by simp)
    rw [List.map_cons, putAll, List.foldl_cons, List.map_cons, List.foldl_cons,
      putText_key ht (hw d (by simp)) (hn d (by simp)) h1 h2]
    exact ih (fun d h => hw d (by simp [h])) (fun d h => hn d (by simp [h])) (fun d h => hd d (by simp [h])) _

theorem putIdts_key {cv : Conv} {valid : Yy.Text → Bool} {defs : List Def} (hw : ∀ d ∈ defs, ObjName d.name)
    (hn : ∀ d ∈ defs, ∀ c ∈ d.content, c.toNat ≠ 0) (hd : ∀ d ∈ defs, d.Ok cv) (db : SMap Yy.Text) :
    putIdts cv valid (defs.map fun d => (d.name, d.content)) db =
      (true, (defs.map fun d => (d.name, if valid d.stored then d.stored else [])).foldl
        (fun db e => SMap.insert (keyOf true e.1) e.2 db) db) := by
  induction defs generalizing db with
  | nil => rfl
  | cons d r ih =>
    obtain ⟨u, h1, h2⟩ := hd d (by simp)
    obtain ⟨k1, k2⟩ := key_name (ty := .identities) (.inr (.inr rfl)) (hw d (by simp))
    have hn1 := hn d (by simp)
    rw [List.map_cons, putIdts, cstr_self hn1, wrap_iff.2 h1, toUtf8_decoded h2 (wrapped_noNul h1 hn1)]
    simp only
    rw [k1, if_pos k2, ih (fun d h => hw d (by simp [h])) (fun d h => hn d (by simp [h])) (fun d h => hd d (by simp [h]))]
    rfl

theorem fold_find {α : Type} (up : Bool) (defs : List (Yy.Text × α)) (k : Yy.Text) :
    SMap.find k (defs.foldl (fun db e => SMap.insert (keyOf up e.1) e.2 db) []) = lastDef up defs k := by
  induction defs using List.reverseRecOn with
  | nil => rfl
  | append_singleton l e ih =>
    rw [List.foldl_append, List.foldl_cons, List.foldl_nil, lastDef, List.filter_append]
    by_cases hk : keyOf up e.1 = k
    · rw [hk, SMap.find_insert_self]
      simp [hk]
    · rw [SMap.find_insert_ne _ _ (Ne.symm hk), ih, lastDef]
      simp [hk]

theorem fold_sorted {α : Type} (up : Bool) (defs : List (Yy.Text × α)) :
    SMap.Sorted (defs.foldl (fun db e => SMap.insert (keyOf up e.1) e.2 db) []) := by
  induction defs using List.reverseRecOn with
  | nil => trivial
  | append_singleton l e ih =>
    rw [List.foldl_append, List.foldl_cons, List.foldl_nil]
    exact SMap.sorted_insert _ _ _ ih

theorem clean_kept {t : Yy.Text} (h0 : ∀ c ∈ t, c.toNat ≠ 0) : Clean (t.filter kept) := by
  intro c hc
  obtain ⟨h1, h2⟩ := List.mem_filter.1 hc
  simp only [kept, decide_eq_true_eq] at h2
  exact ⟨h0 c h1, h2⟩

theorem tlaid_noNul {defs : List (Yy.Text × Yy.Text)} {s : Yy.Text} (h : TLaid defs s) (hc : Clean s) :
    ∀ e ∈ defs, ∀ c ∈ e.2, c.toNat ≠ 0 := by
  induction h with
  | nil => intro e he; cases he
  | obj _ _ _ hl _ ih =>
    intro e he
    have h2 := hc.right.right.right.tail
    rcases List.mem_cons.1 he with rfl | he
    · exact lit_noNul hl fun c hc => (h2.left c hc).1
    · exact ih h2.right.tail e he

/-- Every text of comments or lists is read as it is meant: each name stands for its last definition, cut into lines. -/
theorem C49_load {ty : ObjType} (ht : ty = .comments ∨ ty = .lists) {cv : Conv} {defs : List Def} {t : Yy.Text}
    (h : TLaid (defs.map fun d => (d.name, d.content)) (t.filter kept)) (h0 : ∀ c ∈ t, c.toNat ≠ 0) (hd : ∀ d ∈ defs, d.Ok cv) :
    ∃ db, loadTexts ty cv t = .ok db ∧ SMap.Sorted db ∧
      ∀ k, SMap.find k db = lastDef (decide (ty = .lists)) (defs.map fun d => (d.name, d.stored)) k := by
  have hc := clean_kept h0
  have hl := tlaid_expand h hc 0
  rw [← Lec.expand_kept] at hl
  have hT : IsText ty := by rcases ht with rfl | rfl <;> simp [IsText]
  have hup : upOf ty = decide (ty = .lists) := by rcases ht with rfl | rfl <;> rfl
  rw [loadTexts_laid hl, putAll_key hT (fun d hd => tlaid_names h _ (List.mem_map.2 ⟨d, hd, rfl⟩))
    (fun d hd => tlaid_noNul h hc _ (List.mem_map.2 ⟨d, hd, rfl⟩)) hd, hup]
  exact ⟨_, rfl, fold_sorted _ _, fold_find _ _⟩

/-- Every text of identities is read as it is meant; a formula that does not compile is replaced by nothing. -/
theorem C49_load_identities {cv : Conv} {valid : Yy.Text → Bool} {defs : List Def} {t : Yy.Text}
    (h : TLaid (defs.map fun d => (d.name, d.content)) (t.filter kept)) (h0 : ∀ c ∈ t, c.toNat ≠ 0) (hd : ∀ d ∈ defs, d.Ok cv) :
    ∃ db, loadIdts cv valid t = .ok (true, db) ∧ SMap.Sorted db ∧
      ∀ k, SMap.find k db = lastDef true (defs.map fun d => (d.name, if valid d.stored then d.stored else [])) k := by
  have hc := clean_kept h0
  have hl := tlaid_expand h hc 0
  rw [← Lec.expand_kept] at hl
  rw [loadIdts_laid hl, putIdts_key (fun d hd => tlaid_names h _ (List.mem_map.2 ⟨d, hd, rfl⟩))
    (fun d hd => tlaid_noNul h hc _ (List.mem_map.2 ⟨d, hd, rfl⟩)) hd]
  exact ⟨_, rfl, fold_sorted _ _, fold_find _ _⟩

/-! ## Saving and loading -/

/-- What is written of a text of the code page: comments are written in one line. -/
def written (ty : ObjType) (o : Yy.Text) : Yy.Text := if ty = .comments then oneLine o else o

/-- The texts that a file carries: formulas without quotes and backslashes. -/
structure Fits (ty : ObjType) (o : Yy.Text) : Prop where
  carried : Carried o
  carets : Carets o
  quotes : ty = .identities → ∀ c ∈ o, c ≠ '"' ∧ c ≠ '\\'

/-- What is left of a text that is saved and loaded. -/
def Rewritten (ty : ObjType) (cv : Conv) (t v : Yy.Text) : Prop :=
  ∃ o u, Coded cv t o ∧ Wrapped 60 (written ty o) u ∧ Decoded cv u v

/-- The databases that can be saved: names without `#`, texts that can be converted and are carried. -/
structure Saved (ty : ObjType) (cv : Conv) (db : SMap Yy.Text) : Prop where
  sorted : SMap.Sorted db
  names : ∀ e ∈ db, ObjName e.1 ∧ (ty ≠ .comments → e.1.map toUpperC = e.1)
  noNul : ∀ e ∈ db, ∀ c ∈ e.2, c.toNat ≠ 0
  texts : ∀ e ∈ db, ∃ o u v, Coded cv e.2 o ∧ Fits ty o ∧ Wrapped 60 (written ty o) u ∧ Decoded cv u v

theorem flat_eq (t : Yy.Text) : flat t = oneLine t := by
  rw [flat, oneLine]
  refine List.map_congr_left fun c _ => ?_
  by_cases h : c.toNat = 10
  · rw [if_pos h, if_pos (nl_eq h)]
  · rw [if_neg h, if_neg (fun e => h (by rw [e]; rfl))]

theorem oneLine_carried {t : Yy.Text} (h : Carried t) : Carried (oneLine t) := by
  intro c hc
  obtain ⟨x, hx, rfl⟩ := List.mem_map.1 hc
  split
  · decide
  · exact h x hx

theorem oneLine_carets {t : Yy.Text} (h : Carets t) : Carets (oneLine t) := by
  rw [Carets, oneLine, List.isChain_map]
  refine h.imp ?_
  intro a b hab ha
  have : a = '^' := by
    split at ha
    · cases ha
    · exact ha
  obtain ⟨h1, h2⟩ := hab this
  split
  · decide
  · exact ⟨h1, h2⟩

theorem written_carried {ty : ObjType} {o : Yy.Text} (h : Carried o) : Carried (written ty o) := by
  rw [written]
  split
  · exact oneLine_carried h
  · exact h

theorem lit_escape {t : Yy.Text} (h1 : Carried t) (h2 : Carets t) : Lit t (escape t) := by
  have h0 : ∀ c ∈ t, c.toNat ≠ 0 := fun c hc => (h1 c hc).1
  rw [escape, cstr_self h0]
  clear h0
  induction t with
  | nil => exact .nil
  | cons c t ih =>
    have hi := ih (fun c hc => h1 c (by simp [hc])) h2.tail
    rw [List.flatMap_cons]
    by_cases hq : c = '"' ∨ c = '\\'
    · rw [if_pos hq]
      exact .esc (by tauto) hi
    · rw [if_neg hq]
      simp only [not_or] at hq
      by_cases hc : c = '^'
      · subst hc
        refine .caret ?_ hi
        intro x hx
        cases t with
        | nil => cases hx
        | cons y t =>
          have hy := (List.isChain_cons_cons.1 h2).1 rfl
          rw [List.flatMap_cons] at hx
          split at hx
          · cases hx
            decide
          · cases hx
            exact hy
      · exact .plain hq.1 hq.2 hc (h1 c (by simp)).2.1 hi

theorem lit_plain {t : Yy.Text} (h1 : Carried t) (h2 : Carets t) (h3 : ∀ c ∈ t, c ≠ '"' ∧ c ≠ '\\') : Lit t t := by
  have := lit_escape h1 h2
  rw [escape, cstr_self fun c hc => (h1 c hc).1] at this
  have e : t.flatMap (fun c => if c = '"' ∨ c = '\\' then ['\\', c] else [c]) = t := by
    clear this h1 h2
    induction t with
    | nil => rfl
    | cons c t ih =>
      obtain ⟨a, b⟩ := h3 c (by simp)
      rw [List.flatMap_cons, if_neg (by tauto), ih fun c hc => h3 c (by simp [hc])]
      rfl
  rwa [e] at this

theorem lit_body {ty : ObjType} (ht : IsText ty) {o : Yy.Text} (h : Fits ty o) : Lit (written ty o) (bodyOf ty o) := by
  rcases ht with rfl | rfl | rfl
  · simp only [bodyOf, written, if_true, flat_eq]
    exact lit_escape (oneLine_carried h.carried) (oneLine_carets h.carets)
  · exact lit_escape h.carried h.carets
  · simp only [bodyOf, written]
    rw [if_neg (by decide), cstr_self fun c hc => (h.carried c hc).1]
    exact lit_plain h.carried h.carets (h.quotes rfl)

theorem tlaid_white {c : Char} (hc : White c) {defs : List (Yy.Text × Yy.Text)} {s : Yy.Text} (h : TLaid defs s) :
    TLaid defs (c :: s) := by
  cases h with
  | nil hg => exact .nil (.white hc hg)
  | obj hg hw hg' hl hr => exact .obj (.white hc hg) hw hg' hl hr

/-- The file and what its definitions are to become. -/
theorem saved_defs {ty : ObjType} (ht : IsText ty) {cv : Conv} {db : SMap Yy.Text} (hn : ∀ e ∈ db, ObjName e.1)
    (h0 : ∀ e ∈ db, ∀ c ∈ e.2, c.toNat ≠ 0)
    (hx : ∀ e ∈ db, ∃ o u v, Coded cv e.2 o ∧ Fits ty o ∧ Wrapped 60 (written ty o) u ∧ Decoded cv u v) :
    (saveTexts ty cv db).1 = true ∧ ∃ defs : List Def, TLaid (defs.map fun d => (d.name, d.content)) (saveTexts ty cv db).2 ∧
      (∀ d ∈ defs, d.Ok cv) ∧ (∀ d ∈ defs, Carried d.content) ∧
      List.Forall₂ (fun e d => d.name = e.1 ∧ Rewritten ty cv e.2 d.stored) db defs := by
  induction db with
  | nil => exact ⟨rfl, [], .nil .nil, by simp, by simp, .nil⟩
  | cons e db ih =>
    obtain ⟨i1, defs, i2, i3, i4, i5⟩ := ih (fun e h => hn e (by simp [h])) (fun e h => h0 e (by simp [h]))
      (fun e h => hx e (by simp [h]))
    obtain ⟨o, u, v, h1, h2, h3, h4⟩ := hx e (by simp)
    have ho := toOem_coded h1 (h0 e (by simp))
    simp only [saveTexts] at i1 i2 ⊢
    refine ⟨by rw [List.all_cons, i1, ho]; rfl, ⟨e.1, written ty o, v⟩ :: defs, ?_, ?_, ?_, .cons ⟨rfl, o, u, h1, h3, h4⟩ i5⟩
    · have e1 : (e :: db).flatMap (textLine ty cv) =
          [] ++ (e.1 ++ ([' '] ++ '"' :: (bodyOf ty o ++ '"' :: ('\n' :: db.flatMap (textLine ty cv))))) := by
        rw [List.flatMap_cons, textLine, ho]
        simp
      rw [e1]
      exact .obj .nil (hn e (by simp)) (.white (by decide) .nil) (lit_body ht h2) (tlaid_white (by decide) i2)
    · intro d hd
      rcases List.mem_cons.1 hd with rfl | hd
      · exact ⟨u, h3, h4⟩
      · exact i3 d hd
    · intro d hd
      rcases List.mem_cons.1 hd with rfl | hd
      · exact written_carried h2.carried
      · exact i4 d hd

theorem body_clean {ty : ObjType} (ht : IsText ty) {o : Yy.Text} (h : Carried o) : Clean (bodyOf ty o) := by
  have key : ∀ t : Yy.Text, Carried t → Clean (escape t) := by
    intro t ht c hc
    rw [escape, cstr_self fun c hc => (ht c hc).1] at hc
    obtain ⟨x, hx, hc⟩ := List.mem_flatMap.1 hc
    have := ht x hx
    split at hc
    · rcases List.mem_cons.1 hc with rfl | hc
      · decide
      · simp at hc
        subst hc
        exact ⟨this.1, this.2.2⟩
    · simp at hc
      subst hc
      exact ⟨this.1, this.2.2⟩
  rcases ht with rfl | rfl | rfl
  · simp only [bodyOf, flat_eq]
    exact key _ (oneLine_carried h)
  · exact key _ h
  · simp only [bodyOf]
    rw [cstr_self fun c hc => (h c hc).1]
    intro c hc
    exact ⟨(h c hc).1, (h c hc).2.2⟩

theorem save_clean {ty : ObjType} (ht : IsText ty) {cv : Conv} {db : SMap Yy.Text} (h : Saved ty cv db) :
    Clean (saveTexts ty cv db).2 := by
  intro c hc
  obtain ⟨e, he, hc⟩ := List.mem_flatMap.1 hc
  obtain ⟨o, u, v, h1, h2, _, _⟩ := h.texts e he
  rw [textLine, toOem_coded h1 (h.noNul e he)] at hc
  rcases List.mem_append.1 hc with hc | hc
  · obtain ⟨a1, a2, a3, a4⟩ := Lec.nameCh_plain ((h.names e he).1.all c hc)
    exact ⟨a1, by tauto, by tauto⟩
  · rcases List.mem_cons.1 hc with rfl | hc
    · decide
    · rcases List.mem_cons.1 hc with rfl | hc
      · decide
      · rcases List.mem_append.1 hc with hc | hc
        · exact body_clean ht h2.carried c hc
        · simp at hc
          rcases hc with rfl | rfl <;> decide

theorem keyOf_self {ty : ObjType} {w : Yy.Text} (h : ty ≠ .comments → w.map toUpperC = w) : keyOf (upOf ty) w = w := by
  rw [keyOf]
  split
  · rename_i hu
    exact h (by rintro rfl; cases hu)
  · rfl

theorem fold_names {up : Bool} {l : SMap Yy.Text} (h : ∀ e ∈ l, keyOf up e.1 = e.1) (hs : SMap.Sorted l) :
    l.foldl (fun db e => SMap.insert (keyOf up e.1) e.2 db) [] = l := by
  have : ∀ (m acc : SMap Yy.Text), (∀ e ∈ m, e ∈ l) →
      m.foldl (fun db e => SMap.insert (keyOf up e.1) e.2 db) acc = m.foldl (fun a e => SMap.insert e.1 e.2 a) acc := by
    intro m
    induction m with
    | nil => intro acc _; rfl
    | cons e m ih =>
      intro acc hm
      rw [List.foldl_cons, List.foldl_cons, h e (hm e (by simp))]
      exact ih _ fun e he => hm e (by simp [he])
  rw [this l [] fun _ h => h, BinFile.foldl_insert_sorted l [] hs (by intro k hk; cases hk)]
  rfl

theorem sorted_keys {α β : Type} {l : SMap α} {m : SMap β} (h : l.map (·.1) = m.map (·.1)) (hs : SMap.Sorted l) : SMap.Sorted m := by
  induction l generalizing m with
  | nil =>
    cases m with
    | nil => trivial
    | cons e m => cases h
  | cons e l ih =>
    cases m with
    | nil => cases h
    | cons f m =>
      simp only [List.map_cons, List.cons.injEq] at h
      refine ⟨fun k hk => ?_, ih h.2 hs.2⟩
      rw [← h.1]
      apply hs.1
      simp only [SMap.keys] at hk ⊢
      rwa [h.2]

theorem defs_names {R : Yy.Text × Yy.Text → Def → Prop} {db : SMap Yy.Text} {defs : List Def}
    (h : List.Forall₂ (fun e d => d.name = e.1 ∧ R e d) db defs) : defs.map (·.name) = db.map (·.1) := by
  induction h with
  | nil => rfl
  | cons h _ ih => simp [h.1, ih]

/-- Comments and lists are saved and loaded: all names are there, each text is cut into lines, comments are in one line before. -/
theorem C49_roundtrip {ty : ObjType} (ht : ty = .comments ∨ ty = .lists) {cv : Conv} {db : SMap Yy.Text} (h : Saved ty cv db) :
    (saveTexts ty cv db).1 = true ∧ ∃ db', loadTexts ty cv (saveTexts ty cv db).2 = .ok db' ∧
      List.Forall₂ (fun e e' => e'.1 = e.1 ∧ Rewritten ty cv e.2 e'.2) db db' := by
  have hT : IsText ty := by rcases ht with rfl | rfl <;> simp [IsText]
  obtain ⟨h1, defs, h2, h3, h4, h5⟩ := saved_defs hT (fun e he => (h.names e he).1) h.noNul h.texts
  have hnm := defs_names h5
  have hk : ∀ e ∈ defs.map (fun d => (d.name, d.stored)), keyOf (upOf ty) e.1 = e.1 := by
    intro e he
    obtain ⟨d, hd, rfl⟩ := List.mem_map.1 he
    have : d.name ∈ db.map (·.1) := by rw [← hnm]; exact List.mem_map.2 ⟨d, hd, rfl⟩
    obtain ⟨e, he, e1⟩ := List.mem_map.1 this
    simp only
    rw [← e1]
    exact keyOf_self (h.names e he).2
  refine ⟨h1, defs.map (fun d => (d.name, d.stored)), ?_, ?_⟩
  · rw [loadTexts_laid (tlaid_expand h2 (save_clean hT h) 0), putAll_key hT
      (fun d hd => tlaid_names h2 _ (List.mem_map.2 ⟨d, hd, rfl⟩)) (fun d hd c hc => (h4 d hd c hc).1) h3, fold_names hk]
    refine sorted_keys ?_ h.sorted
    rw [← hnm, List.map_map]
    rfl
  · rw [List.forall₂_map_right_iff]
    exact h5

/-- Identities are saved and loaded; formulas that do not compile when cut into lines are replaced by nothing. -/
theorem C49_roundtrip_identities {cv : Conv} {valid : Yy.Text → Bool} {db : SMap Yy.Text} (h : Saved .identities cv db) :
    (saveTexts .identities cv db).1 = true ∧ ∃ db', loadIdts cv valid (saveTexts .identities cv db).2 = .ok (true, db') ∧
      List.Forall₂ (fun e e' => e'.1 = e.1 ∧ ∃ v, Rewritten .identities cv e.2 v ∧ e'.2 = if valid v then v else []) db db' := by
  have hT : IsText .identities := by simp [IsText]
  obtain ⟨h1, defs, h2, h3, h4, h5⟩ := saved_defs hT (fun e he => (h.names e he).1) h.noNul h.texts
  have hnm := defs_names h5
  have hk : ∀ e ∈ defs.map (fun d => (d.name, if valid d.stored then d.stored else [])), keyOf true e.1 = e.1 := by
    intro e he
    obtain ⟨d, hd, rfl⟩ := List.mem_map.1 he
    have : d.name ∈ db.map (·.1) := by rw [← hnm]; exact List.mem_map.2 ⟨d, hd, rfl⟩
    obtain ⟨e, he, e1⟩ := List.mem_map.1 this
    simp only
    rw [← e1]
    exact keyOf_self (ty := .identities) (h.names e he).2
  refine ⟨h1, defs.map (fun d => (d.name, if valid d.stored then d.stored else [])), ?_, ?_⟩
  · rw [loadIdts_laid (tlaid_expand h2 (save_clean hT h) 0), putIdts_key
      (fun d hd => tlaid_names h2 _ (List.mem_map.2 ⟨d, hd, rfl⟩)) (fun d hd c hc => (h4 d hd c hc).1) h3, fold_names hk]
    refine sorted_keys ?_ h.sorted
    rw [← hnm, List.map_map]
    rfl
  · rw [List.forall₂_map_right_iff]
    exact h5.imp fun e d hd => ⟨hd.1, d.stored, hd.2, rfl⟩

/-! ## Texts that are not changed -/

/-- Texts of the code page that are not changed: comments of one line, at most 60 characters, that do not begin with white space;
    lists and formulas also when they have several lines. -/
def Kept (ty : ObjType) (o : Yy.Text) : Prop :=
  (ty ≠ .comments ∧ '\n' ∈ o) ∨ ('\n' ∉ o ∧ o.length ≤ 60 ∧ ∀ c, o.head? = some c → ¬ Blank c)

theorem oneLine_self {o : Yy.Text} (h : '\n' ∉ o) : oneLine o = o := by
  rw [oneLine]
  conv => rhs; rw [← List.map_id o]
  refine List.map_congr_left fun c hc => ?_
  rw [if_neg (fun e => h (by rwa [← e]))]
  rfl

theorem kept_wrapped {ty : ObjType} {o : Yy.Text} (h : Kept ty o) : Wrapped 60 (written ty o) o := by
  rcases h with ⟨h1, h2⟩ | ⟨h1, h2, h3⟩
  · rw [written, if_neg h1]
    exact .inl ⟨h2, rfl⟩
  · have : written ty o = o := by
      rw [written, oneLine_self h1]
      split <;> rfl
    rw [this]
    exact C49_short h2 h3

theorem wrapped_unique {t u v : Yy.Text} (h1 : Wrapped 60 t u) (h2 : Wrapped 60 t v) : u = v :=
  (wrap_iff.2 h1).symm.trans (wrap_iff.2 h2)

theorem coded_unique {cv : Conv} {t u v : Yy.Text} (h1 : Coded cv t u) (h2 : Coded cv t v) : u = v := by
  rcases h1 with ⟨h, rfl⟩ | ⟨h, h1⟩ <;> rcases h2 with ⟨h', rfl⟩ | ⟨h', h2⟩
  · rfl
  · exact absurd h h'
  · exact absurd h' h
  · rw [h1] at h2
    exact Option.some.inj h2

theorem decoded_unique {cv : Conv} {t u v : Yy.Text} (h1 : Decoded cv t u) (h2 : Decoded cv t v) : u = v := by
  rcases h1 with ⟨h, rfl⟩ | ⟨h, h1⟩ <;> rcases h2 with ⟨h', rfl⟩ | ⟨h', h2⟩
  · rfl
  · exact absurd h h'
  · exact absurd h' h
  · rw [h1] at h2
    exact Option.some.inj h2

/-- The texts that come back: their form in the code page is carried, cut into lines already, and converted back. -/
def Fixed (ty : ObjType) (cv : Conv) (t : Yy.Text) : Prop :=
  ∃ o, Coded cv t o ∧ Decoded cv o t ∧ Fits ty o ∧ Wrapped 60 (written ty o) o

theorem fixed_rewritten {ty : ObjType} {cv : Conv} {t v : Yy.Text} (h : Fixed ty cv t) (hr : Rewritten ty cv t v) : v = t := by
  obtain ⟨o, h1, h2, _, h4⟩ := h
  obtain ⟨o', u, k1, k2, k3⟩ := hr
  cases coded_unique h1 k1
  cases wrapped_unique h4 k2
  exact decoded_unique k3 h2

theorem eq_of_forall₂ {R : Yy.Text → Yy.Text → Prop} {db db' : SMap Yy.Text}
    (h : List.Forall₂ (fun e e' => e'.1 = e.1 ∧ R e.2 e'.2) db db') (hR : ∀ e ∈ db, ∀ v, R e.2 v → v = e.2) : db' = db := by
  induction h with
  | nil => rfl
  | @cons e e' l l' h _ ih =>
    rw [ih fun e he => hR e (by simp [he])]
    exact congrArg (· :: l) (Prod.ext h.1 (hR e (by simp) _ h.2))

/-- Databases of names and texts that come back. -/
structure Settled (ty : ObjType) (cv : Conv) (db : SMap Yy.Text) : Prop where
  sorted : SMap.Sorted db
  names : ∀ e ∈ db, ObjName e.1 ∧ (ty ≠ .comments → e.1.map toUpperC = e.1)
  noNul : ∀ e ∈ db, ∀ c ∈ e.2, c.toNat ≠ 0
  texts : ∀ e ∈ db, Fixed ty cv e.2

theorem Settled.saved {ty : ObjType} {cv : Conv} {db : SMap Yy.Text} (h : Settled ty cv db) : Saved ty cv db :=
  ⟨h.sorted, h.names, h.noNul, fun e he => by
    obtain ⟨o, h1, h2, h3, h4⟩ := h.texts e he
    exact ⟨o, o, e.2, h1, h3, h4, h2⟩⟩

theorem settled_back {ty : ObjType} (ht : ty = .comments ∨ ty = .lists) {cv : Conv} {db : SMap Yy.Text} (h : Settled ty cv db) :
    loadTexts ty cv (saveTexts ty cv db).2 = .ok db := by
  obtain ⟨_, db', h1, h2⟩ := C49_roundtrip ht h.saved
  rw [h1, eq_of_forall₂ h2 fun e he v hv => fixed_rewritten (h.texts e he) hv]

theorem settled_back_identities {cv : Conv} {valid : Yy.Text → Bool} {db : SMap Yy.Text} (h : Settled .identities cv db)
    (hv : ∀ e ∈ db, e.2 = [] ∨ valid e.2 = true) : loadIdts cv valid (saveTexts .identities cv db).2 = .ok (true, db) := by
  obtain ⟨_, db', h1, h2⟩ := C49_roundtrip_identities (valid := valid) h.saved
  rw [h1, eq_of_forall₂ (R := fun t v => ∃ w, Rewritten .identities cv t w ∧ v = if valid w then w else []) h2]
  rintro e he v ⟨w, hw, rfl⟩
  rw [fixed_rewritten (h.texts e he) hw]
  split
  · rfl
  · rcases hv e he with h0 | h0
    · exact h0.symm
    · contradiction

/-- Short texts come back as they were, and so do lists of several lines. -/
theorem C49_exact {ty : ObjType} (ht : ty = .comments ∨ ty = .lists) {cv : Conv} {db : SMap Yy.Text} (hs : SMap.Sorted db)
    (hn : ∀ e ∈ db, ObjName e.1 ∧ (ty ≠ .comments → e.1.map toUpperC = e.1)) (h0 : ∀ e ∈ db, ∀ c ∈ e.2, c.toNat ≠ 0)
    (hx : ∀ e ∈ db, ∃ o, Coded cv e.2 o ∧ Decoded cv o e.2 ∧ Fits ty o ∧ Kept ty o) :
    loadTexts ty cv (saveTexts ty cv db).2 = .ok db := by
  refine settled_back ht ⟨hs, hn, h0, fun e he => ?_⟩
  obtain ⟨o, h1, h2, h3, h4⟩ := hx e he
  exact ⟨o, h1, h2, h3, kept_wrapped h4⟩

/-- Short formulas come back as they were, and so do formulas of several lines. -/
theorem C49_exact_identities {cv : Conv} {valid : Yy.Text → Bool} {db : SMap Yy.Text} (hs : SMap.Sorted db)
    (hn : ∀ e ∈ db, ObjName e.1 ∧ e.1.map toUpperC = e.1) (h0 : ∀ e ∈ db, ∀ c ∈ e.2, c.toNat ≠ 0)
    (hx : ∀ e ∈ db, ∃ o, Coded cv e.2 o ∧ Decoded cv o e.2 ∧ Fits .identities o ∧ Kept .identities o)
    (hv : ∀ e ∈ db, valid e.2 = true) : loadIdts cv valid (saveTexts .identities cv db).2 = .ok (true, db) := by
  refine settled_back_identities ⟨hs, fun e he => ⟨(hn e he).1, fun _ => (hn e he).2⟩, h0, fun e he => ?_⟩
    fun e he => .inr (hv e he)
  obtain ⟨o, h1, h2, h3, h4⟩ := hx e he
  exact ⟨o, h1, h2, h3, kept_wrapped h4⟩

/-! ## Saving again -/

/-- All texts of the code page can be converted, and back. -/
def Faithful (cv : Conv) : Prop :=
  ∀ o, o ≠ [] → (∀ c ∈ o, c.toNat ≠ 0) → ∃ v, v ≠ [] ∧ (∀ c ∈ v, c.toNat ≠ 0) ∧ cv.dec o = some v ∧ cv.enc v = some o

theorem Faithful.both {cv : Conv} (h : Faithful cv) {o : Yy.Text} (h0 : ∀ c ∈ o, c.toNat ≠ 0) :
    ∃ v, (∀ c ∈ v, c.toNat ≠ 0) ∧ Decoded cv o v ∧ Coded cv v o := by
  by_cases he : o = []
  · exact ⟨[], by simp, .inl ⟨he, rfl⟩, .inl ⟨rfl, he⟩⟩
  · obtain ⟨v, h1, h2, h3, h4⟩ := h o he h0
    exact ⟨v, h2, .inr ⟨he, h3⟩, .inr ⟨h1, h4⟩⟩

theorem fits_wrapped {ty : ObjType} {o u : Yy.Text} (h : Fits ty o) (hw : Wrapped 60 o u) : Fits ty u := by
  refine ⟨?_, wrapped_carets hw h.carets, ?_⟩
  · intro c hc
    rcases wrapped_mem hw c hc with h1 | rfl
    · exact h.carried c h1
    · decide
  · intro ht c hc
    rcases wrapped_mem hw c hc with h1 | rfl
    · exact h.quotes ht c h1
    · decide

theorem rewritten_fixed {ty : ObjType} (ht : ty ≠ .comments) {cv : Conv} (hf : Faithful cv) {t v : Yy.Text} {o : Yy.Text}
    (ho : Coded cv t o) (hfit : Fits ty o) (h : Rewritten ty cv t v) : Fixed ty cv v ∧ ∀ c ∈ v, c.toNat ≠ 0 := by
  obtain ⟨o', u, h1, h2, h3⟩ := h
  cases coded_unique ho h1
  rw [written, if_neg ht] at h2
  have hu := fits_wrapped hfit h2
  obtain ⟨w, k0, k1, k2⟩ := hf.both fun c hc => (hu.carried c hc).1
  cases decoded_unique h3 k1
  refine ⟨⟨u, k2, k1, hu, ?_⟩, k0⟩
  rw [written, if_neg ht]
  exact wrapped_again h2

theorem forall₂_mem {α β : Type} {R : α → β → Prop} {l : List α} {m : List β} (h : List.Forall₂ R l m) :
    ∀ b ∈ m, ∃ a ∈ l, R a b := by
  induction h with
  | nil => simp
  | cons h _ ih =>
    intro b hb
    rcases List.mem_cons.1 hb with rfl | hb
    · exact ⟨_, by simp, h⟩
    · obtain ⟨a, ha, hr⟩ := ih b hb
      exact ⟨a, by simp [ha], hr⟩

theorem forall₂_keys {R : Yy.Text × Yy.Text → Yy.Text × Yy.Text → Prop} {db db' : SMap Yy.Text}
    (h : List.Forall₂ (fun e e' => e'.1 = e.1 ∧ R e e') db db') : db.map (·.1) = db'.map (·.1) := by
  induction h with
  | nil => rfl
  | cons h _ ih => simp [h.1, ih]

/-- Lists that were saved and loaded once are not changed any more. -/
theorem C49_stable {cv : Conv} (hf : Faithful cv) {db : SMap Yy.Text} (h : Saved .lists cv db) :
    ∃ db', loadTexts .lists cv (saveTexts .lists cv db).2 = .ok db' ∧
      loadTexts .lists cv (saveTexts .lists cv db').2 = .ok db' := by
  obtain ⟨_, db', h1, h2⟩ := C49_roundtrip (.inr rfl) h
  refine ⟨db', h1, settled_back (.inr rfl) ⟨sorted_keys (forall₂_keys h2) h.sorted, ?_, ?_, ?_⟩⟩
  · intro e he
    obtain ⟨x, hx, h3, _⟩ := forall₂_mem h2 e he
    rw [h3]
    exact h.names x hx
  · intro e he
    obtain ⟨x, hx, _, h3⟩ := forall₂_mem h2 e he
    obtain ⟨o, _, _, k1, k2, _, _⟩ := h.texts x hx
    exact (rewritten_fixed (by decide) hf k1 k2 h3).2
  · intro e he
    obtain ⟨x, hx, _, h3⟩ := forall₂_mem h2 e he
    obtain ⟨o, _, _, k1, k2, _, _⟩ := h.texts x hx
    exact (rewritten_fixed (by decide) hf k1 k2 h3).1

/-- Identities that were saved and loaded once are not changed any more. -/
theorem C49_stable_identities {cv : Conv} (hf : Faithful cv) {valid : Yy.Text → Bool} {db : SMap Yy.Text}
    (h : Saved .identities cv db) :
    ∃ db', loadIdts cv valid (saveTexts .identities cv db).2 = .ok (true, db') ∧
      loadIdts cv valid (saveTexts .identities cv db').2 = .ok (true, db') := by
  obtain ⟨_, db', h1, h2⟩ := C49_roundtrip_identities (valid := valid) h
  have hnil : Fixed .identities cv [] :=
    ⟨[], .inl ⟨rfl, rfl⟩, .inl ⟨rfl, rfl⟩, ⟨by simp [Carried], by simp [Carets], by simp⟩, kept_wrapped (.inr ⟨by simp, by simp, by simp⟩)⟩
  refine ⟨db', h1, settled_back_identities ⟨sorted_keys (forall₂_keys h2) h.sorted, ?_, ?_, ?_⟩ ?_⟩
  · intro e he
    obtain ⟨x, hx, h3, _⟩ := forall₂_mem h2 e he
    rw [h3]
    exact h.names x hx
  · intro e he
    obtain ⟨x, hx, _, v, h3, h4⟩ := forall₂_mem h2 e he
    obtain ⟨o, _, _, k1, k2, _, _⟩ := h.texts x hx
    rw [h4]
    split
    · exact (rewritten_fixed (by decide) hf k1 k2 h3).2
    · simp
  · intro e he
    obtain ⟨x, hx, _, v, h3, h4⟩ := forall₂_mem h2 e he
    obtain ⟨o, _, _, k1, k2, _, _⟩ := h.texts x hx
    rw [h4]
    split
    · exact (rewritten_fixed (by decide) hf k1 k2 h3).1
    · exact hnil
  · intro e he
    obtain ⟨x, hx, _, v, h3, h4⟩ := forall₂_mem h2 e he
    rw [h4]
    split
    · rename_i hv
      exact .inr hv
    · exact .inl rfl

theorem ink_oneLine (t : Yy.Text) : ink (oneLine t) = ink t := by
  induction t with
  | nil => rfl
  | cons c t ih =>
    by_cases h : c = '\n'
    · subst h
      rw [ink_nl, ← ih]
      rfl
    · have : oneLine (c :: t) = c :: oneLine t := by simp [oneLine, h]
      rw [this, show c :: oneLine t = [c] ++ oneLine t from rfl, ink_append, ih, ← ink_append]
      rfl

/-- However often a text is saved and loaded, what is seen of it stays the same. -/
theorem C49_ink_kept {ty : ObjType} {cv : Conv} (hf : Faithful cv) {t o v : Yy.Text} (ho : Coded cv t o) (hc : Carried o)
    (h : Rewritten ty cv t v) : ∃ o', Coded cv v o' ∧ ink o' = ink o := by
  obtain ⟨o1, u, h1, h2, h3⟩ := h
  cases coded_unique ho h1
  have hn := wrapped_noNul h2 fun c hx => (written_carried (ty := ty) hc c hx).1
  obtain ⟨w, _, k1, k2⟩ := hf.both hn
  cases decoded_unique h3 k1
  refine ⟨u, k2, ?_⟩
  rw [C49_ink h2, written]
  split
  · exact ink_oneLine o
  · rfl

/-! ## Files that are not well formed -/

theorem skipText_ends {n : Nat} {st : St} (ho : st.Ok) (hn : st.size < n) :
    skipText n st ≠ .err ∧ ∀ s, skipText n st = .ok s → s.Ok ∧ s.size ≤ st.size := by
  induction n generalizing st with
  | zero => omega
  | succ n ih =>
    rw [skipText]
    cases hl : lxs noKeys st with
    | err => exact absurd hl (lxs_ne_err ho)
    | ub => simp [Res.bind]
    | ok p =>
      obtain ⟨l, s1⟩ := p
      obtain ⟨a1, a2, a3, a4⟩ := lxs_size ho hl
      have hu := unread_size a1 a2 a3 a4
      have next : l ≠ .raw .eof → skipText n s1 ≠ .err ∧ ∀ s, skipText n s1 = .ok s → s.Ok ∧ s.size ≤ st.size := by
        intro he
        have hs : s1.size < st.size := by
          rcases a3 with ⟨h, _⟩ | ⟨_, h⟩
          · exact absurd h he
          · exact h
        obtain ⟨b1, b2⟩ := ih a1 (by omega)
        exact ⟨b1, fun s h => ⟨(b2 s h).1, le_trans (b2 s h).2 a4⟩⟩
      simp only [Res.bind]
      split
      · exact ⟨by simp, by rintro s h; cases h; exact hu⟩
      · exact ⟨by simp, by rintro s h; cases h; exact hu⟩
      · rename_i h1 _
        exact next h1

theorem readText_ends {st : St} (ho : st.Ok) : Ends st.size (readText st) := by
  rw [readText]
  cases hl : lxs noKeys st with
  | err => exact absurd hl (lxs_ne_err ho)
  | ub => exact ⟨by simp [Res.bind], by simp [Res.bind]⟩
  | ok p =>
    obtain ⟨l, s1⟩ := p
    obtain ⟨a1, a2, a3, a4⟩ := lxs_size ho hl
    have hu := unread_size a1 a2 a3 a4
    have key : ∀ (s : St) (x : Yy.Text), s.Ok → s.size ≤ st.size →
        Ends st.size ((skipText (s.text.length + 2) s).bind fun r => .ok (x, r)) := by
      intro s x h1 h2
      obtain ⟨b1, b2⟩ := skipText_ends (n := s.text.length + 2) h1 (by have := size_le s; omega)
      cases hs : skipText (s.text.length + 2) s with
      | err => exact absurd hs b1
      | ub => exact ⟨by simp [Res.bind], by simp [Res.bind]⟩
      | ok r => exact Ends.ok ⟨(b2 r hs).1, le_trans (b2 r hs).2 h2⟩
    simp only [Res.bind]
    split
    · exact key s1 _ a1 a4
    · exact key _ _ hu.1 hu.2

theorem textLoop_ends {ty : ObjType} {cv : Conv} {n : Nat} {st : St} (ho : st.Ok) (hn : st.size < n) (db : SMap Yy.Text) :
    textLoop ty cv n st db ≠ .err := by
  induction n generalizing st db with
  | zero => omega
  | succ n ih =>
    rw [textLoop]
    cases hl : lxs noKeys st with
    | err => exact absurd hl (lxs_ne_err ho)
    | ub => simp [Res.bind]
    | ok p =>
      obtain ⟨l, s1⟩ := p
      obtain ⟨a1, a2, a3, a4⟩ := lxs_size ho hl
      have hs : l ≠ .raw .eof → s1.size < st.size := by
        intro he
        rcases a3 with ⟨h, _⟩ | ⟨_, h⟩
        · exact absurd h he
        · exact h
      simp only [Res.bind]
      split
      · simp
      · rename_i w
        have := hs (by simp)
        obtain ⟨b1, b2⟩ := readText_ends a1
        cases hr : readText s1 with
        | err => exact absurd hr b1
        | ub => simp
        | ok q =>
          obtain ⟨x, s2⟩ := q
          obtain ⟨c1, c2⟩ := b2 x s2 hr
          exact ih c1 (by omega) _
      · rename_i h1 _
        have := hs h1
        exact ih a1 (by omega) _

theorem idtLoop_ends {cv : Conv} {valid : Yy.Text → Bool} {n : Nat} {st : St} (ho : st.Ok) (hn : st.size < n) (db : SMap Yy.Text) :
    idtLoop cv valid n st db ≠ .err := by
  induction n generalizing st db with
  | zero => omega
  | succ n ih =>
    rw [idtLoop]
    cases hl : lxs noKeys st with
    | err => exact absurd hl (lxs_ne_err ho)
    | ub => simp [Res.bind]
    | ok p =>
      obtain ⟨l, s1⟩ := p
      obtain ⟨a1, a2, a3, a4⟩ := lxs_size ho hl
      have hs : l ≠ .raw .eof → s1.size < st.size := by
        intro he
        rcases a3 with ⟨h, _⟩ | ⟨_, h⟩
        · exact absurd h he
        · exact h
      simp only [Res.bind]
      split
      · simp
      · rename_i w
        have := hs (by simp)
        cases hr : lxs noKeys s1 with
        | err => exact absurd hr (lxs_ne_err a1)
        | ub => simp
        | ok q =>
          obtain ⟨x, s2⟩ := q
          obtain ⟨c1, _, _, c4⟩ := lxs_size a1 hr
          simp only
          split
          · split
            · simp
            · split
              · exact ih c1 (by omega) _
              · simp
          · exact ih c1 (by omega) _
      · rename_i h1 _
        have := hs h1
        exact ih a1 (by omega) _

/-- Whatever the file is, loading comes to an end (`.err` is the result of a loop that is not at its end when all the characters
    are used). -/
theorem C49_ends (ty : ObjType) (cv : Conv) (valid : Yy.Text → Bool) (t : Yy.Text) :
    loadTexts ty cv t ≠ .err ∧ loadIdts cv valid t ≠ .err := by
  have ho : St.Ok ⟨.err, false, expand 0 t⟩ := by intro h; cases h
  have hs : St.size ⟨.err, false, expand 0 t⟩ < (expand 0 t).length + 2 := by simp [St.size]
  exact ⟨textLoop_ends ho hs [], idtLoop_ends ho hs []⟩


/-! ## Examples -/

/-- A code page where nothing is to be converted. -/
def same : Conv := ⟨some, some⟩

theorem same_faithful : Faithful same := fun o h h0 => ⟨o, h, h0, rfl, rfl⟩

/-- Two comments: quotes, a backslash, a caret in front of a digit, an empty text. -/
def notes : SMap Yy.Text := [("A".toList, "say \"x\" \\ 2^3".toList), ("b".toList, [])]

theorem coded_same {t : Yy.Text} : Coded same t t := by
  by_cases h : t = []
  · exact .inl ⟨h, h⟩
  · exact .inr ⟨h, rfl⟩

theorem decoded_same {t : Yy.Text} : Decoded same t t := by
  by_cases h : t = []
  · exact .inl ⟨h, h⟩
  · exact .inr ⟨h, rfl⟩

instance (t : Yy.Text) : Decidable (Carried t) := inferInstanceAs (Decidable (∀ c ∈ t, _))

instance (t : Yy.Text) : Decidable (Carets t) := inferInstanceAs (Decidable (List.IsChain _ t))

instance (c : Char) : Decidable (Digit c) := inferInstanceAs (Decidable (_ ∧ _))

theorem objName {w : Yy.Text} (h : w ≠ [] ∧ (w.head?.all fun c => decide (¬ Digit c)) = true ∧ (∀ c ∈ w, NameCh c) ∧ w.length ≤ 20) :
    ObjName w :=
  ⟨h.1, by
    intro c hc
    have := h.2.1
    rw [hc] at this
    simpa using this, h.2.2.1, h.2.2.2⟩

theorem notes_fit : ∀ e ∈ notes, Fits .comments e.2 ∧ Kept .comments e.2 := by
  intro e he
  simp only [notes, List.mem_cons, List.not_mem_nil, or_false] at he
  rcases he with rfl | rfl
  · exact ⟨⟨by decide +kernel, by decide +kernel, by intro h; cases h⟩, .inr ⟨by decide +kernel, by decide +kernel, by decide +kernel⟩⟩
  · exact ⟨⟨by decide, by simp [Carets], by intro h; cases h⟩, .inr ⟨by decide, by decide, by simp⟩⟩

/-- `C49_exact` and the file. -/
example : loadTexts .comments same (saveTexts .comments same notes).2 = .ok notes ∧
    (saveTexts .comments same notes).2 = "A \"say \\\"x\\\" \\\\ 2^3\"\nb \"\"\n".toList := by
  refine ⟨C49_exact (.inl rfl) ?_ ?_ ?_ ?_, by decide +kernel⟩
  · exact ⟨by decide +kernel, (by intro k hk; cases hk), trivial⟩
  · intro e he
    refine ⟨objName ?_, fun h => absurd rfl h⟩
    simp only [notes, List.mem_cons, List.not_mem_nil, or_false] at he
    rcases he with rfl | rfl <;> decide +kernel
  · intro e he
    simp only [notes, List.mem_cons, List.not_mem_nil, or_false] at he
    rcases he with rfl | rfl <;> decide +kernel
  · exact fun e he => ⟨e.2, coded_same, decoded_same, notes_fit e he⟩

/-- Ninety characters: names of variables in a list. -/
def many : Yy.Text := (List.replicate 30 "AB;".toList).flatten

theorem many_wrapped : Wrapped 60 many ((List.replicate 20 "AB;".toList).flatten ++ '\n' :: (List.replicate 10 "AB;".toList).flatten) :=
  wrap_iff.1 (by decide +kernel)

/-- A list of one long line. -/
theorem many_saved : Saved .lists same [("L".toList, many)] := by
  refine ⟨⟨(by intro k hk; cases hk), trivial⟩, ?_, ?_, ?_⟩
  · intro e he
    rw [List.mem_singleton.1 he]
    exact ⟨objName (by decide +kernel), fun _ => by decide +kernel⟩
  · intro e he
    rw [List.mem_singleton.1 he]
    decide +kernel
  · intro e he
    rw [List.mem_singleton.1 he]
    exact ⟨many, _, _, coded_same, ⟨by decide +kernel, by decide +kernel, by intro h; cases h⟩, many_wrapped, decoded_same⟩

/-- `C49_roundtrip`, `C49_stable`. -/
example : ∃ db', loadTexts .lists same (saveTexts .lists same [("L".toList, many)]).2 = .ok db' ∧
    loadTexts .lists same (saveTexts .lists same db').2 = .ok db' := C49_stable same_faithful many_saved

/-- `C49_line_end`: the end of the line is behind the separator. -/
example : Lines 60 many [(List.replicate 20 "AB;".toList).flatten, (List.replicate 10 "AB;".toList).flatten] := by
  refine Lines.sep (b := []) (c := 'A') (l := 'B' :: ((List.replicate 19 ";AB".toList).flatten)) (d := ';')
    (r := (List.replicate 10 "AB;".toList).flatten) (by simp) (by decide) (by decide) (by decide +kernel) (by decide +kernel)
    (by decide +kernel) ?_
  exact Lines.last (b := []) (c := 'A') (l := 'B' :: ((List.replicate 9 ";AB".toList).flatten) ++ [';']) (by simp) (by decide)
    (by decide +kernel)

/-- The two formulas of the next example. -/
def rules : SMap Yy.Text := [("X1".toList, "A + B\n* C".toList), ("Y".toList, "d ln A".toList)]

/-- `C49_exact_identities`: one formula has two lines. -/
example (valid : Yy.Text → Bool) (h : ∀ e ∈ rules, valid e.2 = true) :
    loadIdts same valid (saveTexts .identities same rules).2 = .ok (true, rules) := by
  refine C49_exact_identities ⟨by decide +kernel, (by intro k hk; cases hk), trivial⟩ ?_ ?_ ?_ h
  · intro e he
    simp only [rules, List.mem_cons, List.not_mem_nil, or_false] at he
    rcases he with rfl | rfl <;> exact ⟨objName (by decide +kernel), by decide +kernel⟩
  · intro e he
    simp only [rules, List.mem_cons, List.not_mem_nil, or_false] at he
    rcases he with rfl | rfl <;> decide +kernel
  · intro e he
    refine ⟨e.2, coded_same, decoded_same, ?_⟩
    simp only [rules, List.mem_cons, List.not_mem_nil, or_false] at he
    rcases he with rfl | rfl
    · exact ⟨⟨by decide +kernel, by decide +kernel, fun _ => by decide +kernel⟩, .inl ⟨by decide, by decide +kernel⟩⟩
    · exact ⟨⟨by decide +kernel, by decide +kernel, fun _ => by decide +kernel⟩, .inr ⟨by decide +kernel, by decide +kernel, by decide +kernel⟩⟩

/-- A long formula. -/
def long : Yy.Text := (List.replicate 20 "(A+B)*".toList).flatten ++ "2".toList

theorem long_wrapped : Wrapped 60 long
    ((List.replicate 10 "(A+B)*".toList).flatten ++ '\n' :: ((List.replicate 10 "(A+B)*".toList).flatten ++ "\n2".toList)) :=
  wrap_iff.1 (by decide +kernel)

theorem long_saved : Saved .identities same [("X".toList, long)] := by
  refine ⟨⟨(by intro k hk; cases hk), trivial⟩, ?_, ?_, ?_⟩
  · intro e he
    rw [List.mem_singleton.1 he]
    exact ⟨objName (by decide +kernel), fun _ => by decide +kernel⟩
  · intro e he
    rw [List.mem_singleton.1 he]
    decide +kernel
  · intro e he
    rw [List.mem_singleton.1 he]
    exact ⟨long, _, _, coded_same, ⟨by decide +kernel, by decide +kernel, fun _ => by decide +kernel⟩, long_wrapped, decoded_same⟩

/-- `C49_roundtrip_identities`, `C49_stable_identities`. -/
example (valid : Yy.Text → Bool) : ∃ db', loadIdts same valid (saveTexts .identities same [("X".toList, long)]).2 = .ok (true, db') ∧
    loadIdts same valid (saveTexts .identities same db').2 = .ok (true, db') :=
  C49_stable_identities same_faithful long_saved

/-- `C49_ink`, `C49_ink_kept`. -/
example : ink ((List.replicate 20 "AB;".toList).flatten ++ '\n' :: (List.replicate 10 "AB;".toList).flatten) = ink many ∧
    ∃ o', Coded same ((List.replicate 20 "AB;".toList).flatten ++ '\n' :: (List.replicate 10 "AB;".toList).flatten) o' ∧
      ink o' = ink many :=
  ⟨C49_ink many_wrapped, C49_ink_kept (ty := .lists) same_faithful coded_same (by decide +kernel)
    ⟨many, _, coded_same, many_wrapped, decoded_same⟩⟩

/-- `C49_line_length`, `C49_short`: 60 characters are a line, 61 are not. -/
example : Wrapped 60 (List.replicate 60 'x') (List.replicate 60 'x') ∧ ¬ Wrapped 60 (List.replicate 61 'x') (List.replicate 61 'x') :=
  ⟨C49_short (by decide +kernel) (by decide +kernel), fun h => absurd (wrap_iff.2 h) (by decide +kernel)⟩

/-- `C49_load_identities`: the second definition counts, it does not compile. -/
example : ∃ db, loadIdts same (fun t => t == ['A']) "x \"A\" X \"+\"".toList = .ok (true, db) ∧ SMap.Sorted db ∧
    ∀ k, SMap.find k db = lastDef true [(['x'], ['A']), (['X'], [])] k := by
  refine C49_load_identities (cv := same) (defs := [⟨['x'], ['A'], ['A']⟩, ⟨['X'], ['+'], ['+']⟩]) ?_ (by decide +kernel) ?_
  · rw [show ("x \"A\" X \"+\"".toList).filter kept = [] ++ (['x'] ++ ([' '] ++ '"' :: (['A'] ++ '"' ::
      ([' '] ++ (['X'] ++ ([' '] ++ '"' :: (['+'] ++ '"' :: []))))))) from by decide +kernel]
    exact .obj .nil (objName (by decide +kernel)) (.white (by decide) .nil)
      (.plain (by decide) (by decide) (by decide) (by decide) .nil)
      (.obj (.white (by decide) .nil) (objName (by decide +kernel)) (.white (by decide) .nil)
        (.plain (by decide) (by decide) (by decide) (by decide) .nil) (.nil .nil))
  · intro d hd
    simp only [List.mem_cons, List.not_mem_nil, or_false] at hd
    rcases hd with rfl | rfl <;> exact ⟨_, C49_short (by decide) (by decide), decoded_same⟩

/-- `C49_load`: comments between the elements, an escaped quote, a name that is defined twice. -/
example : ∃ db, loadTexts .lists same "l \"x\" /* c */ m\n\"a\\\"b\" L\"y\"".toList = .ok db ∧ SMap.Sorted db ∧
    ∀ k, SMap.find k db = lastDef true [(['l'], ['x']), (['m'], ['a', '"', 'b']), (['L'], ['y'])] k := by
  refine C49_load (.inr rfl) (cv := same) (defs := [⟨['l'], ['x'], ['x']⟩, ⟨['m'], ['a', '"', 'b'], ['a', '"', 'b']⟩,
    ⟨['L'], ['y'], ['y']⟩]) ?_ (by decide +kernel) ?_
  · rw [show ("l \"x\" /* c */ m\n\"a\\\"b\" L\"y\"".toList).filter kept = [] ++ (['l'] ++ ([' '] ++ '"' :: (['x'] ++ '"' ::
      (([' '] ++ ('/' :: '*' :: ([' ', 'c', ' '] ++ '*' :: '/' :: [' ']))) ++ (['m'] ++ (['\n'] ++ '"' :: (['a', '\\', '"', 'b'] ++
      '"' :: ([' '] ++ (['L'] ++ ([] ++ '"' :: (['y'] ++ '"' :: []))))))))))) from by decide +kernel]
    refine .obj .nil (objName (by decide +kernel)) (.white (by decide) .nil)
      (.plain (by decide) (by decide) (by decide) (by decide) .nil) ?_
    refine .obj (.white (by decide) (.block (b := [' ', 'c', ' ']) (by simp only [Lec.Written.NoEnd]; decide) (.white (by decide) .nil))) (objName (by decide +kernel)) (.white (by decide) .nil)
      (.plain (by decide) (by decide) (by decide) (by decide) (.esc (by simp)
        (.plain (by decide) (by decide) (by decide) (by decide) .nil))) ?_
    exact .obj (.white (by decide) .nil) (objName (by decide +kernel)) .nil
      (.plain (by decide) (by decide) (by decide) (by decide) .nil) (.nil .nil)
  · intro d hd
    simp only [List.mem_cons, List.not_mem_nil, or_false] at hd
    rcases hd with rfl | rfl | rfl <;> exact ⟨_, C49_short (by decide) (by decide), decoded_same⟩

/-! ## Where texts are not restored -/

/-- `^` and a letter is read as a control character. -/
theorem C49_caret_counterexample :
    loadTexts .comments same (saveTexts .comments same [("A".toList, "a^b".toList)]).2 =
      .ok [("A".toList, ['a', Char.ofNat 2])] := by decide +kernel

/-- A power of two variables is lost: the identity is there, its formula is empty, loading reports success (for every compiler that
    refuses control characters). -/
theorem C49_power_counterexample (valid : Yy.Text → Bool) (h : valid ['A', Char.ofNat 2] = false) :
    loadIdts same valid (saveTexts .identities same [("X".toList, "A^B".toList)]).2 = .ok (true, [("X".toList, [])]) := by
  have e : ∀ v : Yy.Text → Bool, v = (fun t => v t) := fun _ => rfl
  have h1 : loadIdts same (fun t => if t = ['A', Char.ofNat 2] then valid ['A', Char.ofNat 2] else valid t)
      (saveTexts .identities same [("X".toList, "A^B".toList)]).2 = .ok (true, [("X".toList, [])]) := by
    rw [h]
    rfl
  have h2 : (fun t => if t = ['A', Char.ofNat 2] then valid ['A', Char.ofNat 2] else valid t) = valid := by
    funext t
    split
    · rename_i e; rw [e]
    · rfl
  rwa [h2] at h1

/-- A comment of two words with one blank between them. -/
def grow (n : Nat) : Yy.Text := List.replicate 50 'a' ++ List.replicate n ' ' ++ List.replicate 50 'b'

/-- A long comment has another line after each save and load: each time one more blank. -/
theorem C49_grow_counterexample : ∃ db1 db2,
    loadTexts .comments same (saveTexts .comments same [("A".toList, grow 1)]).2 = .ok db1 ∧
    loadTexts .comments same (saveTexts .comments same db1).2 = .ok db2 ∧
    db1 = [("A".toList, List.replicate 50 'a' ++ " \n".toList ++ List.replicate 50 'b')] ∧
    db2 = [("A".toList, List.replicate 50 'a' ++ "  \n".toList ++ List.replicate 50 'b')] :=
  ⟨_, _, by decide +kernel, by decide +kernel, rfl, rfl⟩

/-- The lines of a comment are joined, blanks in front of it are dropped. -/
theorem C49_newline_counterexample :
    loadTexts .comments same (saveTexts .comments same [("A".toList, "a\nb".toList), ("B".toList, "  c".toList)]).2 =
      .ok [("A".toList, "a b".toList), ("B".toList, "c".toList)] := by decide +kernel

/-- A text without separators is cut. -/
theorem C49_word_counterexample :
    loadTexts .lists same (saveTexts .lists same [("L".toList, List.replicate 70 'x')]).2 =
      .ok [("L".toList, List.replicate 60 'x' ++ '\n' :: List.replicate 10 'x')] := by decide +kernel

/-- Tabs become blanks. -/
theorem C49_tab_counterexample :
    loadTexts .lists same (saveTexts .lists same [("L".toList, "a\tb".toList)]).2 = .ok [("L".toList, "a    b".toList)] := by
  decide +kernel

/-- The text of a comment named `A#B` becomes that of `B`, `A` is there and empty. -/
theorem C49_hash_counterexample : checkName .comments "A#B".toList = true ∧
    loadTexts .comments same (saveTexts .comments same [("A#B".toList, "x".toList), ("B".toList, "y".toList)]).2 =
      .ok [("A".toList, []), ("B".toList, "y".toList)] := by decide +kernel

/-- A code page without the letter `e`. -/
def poor : Conv := ⟨fun t => if t.contains 'e' then none else some t, some⟩

/-- When one formula can not be converted the next identity is lost as well; saving reports that. -/
theorem C49_convert_counterexample :
    saveTexts .identities poor [("A".toList, "exp B".toList), ("B".toList, "C".toList), ("D".toList, "E".toList)] =
      (false, "A B \"C\"\nD \"E\"\n".toList) ∧
    loadIdts poor (fun _ => true) "A B \"C\"\nD \"E\"\n".toList = .ok (true, [("D".toList, "E".toList)]) := by decide +kernel

/-- Quotes in a remark of a formula are not escaped: the text ends there and the word between them becomes an identity. -/
theorem C49_quote_counterexample :
    loadIdts same (fun _ => true) (saveTexts .identities same [("A".toList, "B /* \"x\" */".toList), ("C".toList, "D".toList)]).2 =
      .ok (true, [("A".toList, "B /* ".toList), ("C".toList, "D".toList), ("X".toList, "*/".toList)]) := by decide +kernel

/-- A number in scientific notation is cut behind its sign. -/
theorem C49_number_counterexample :
    loadIdts same (fun _ => true) (saveTexts .identities same [("X".toList, List.replicate 56 'A' ++ "+1e-5".toList)]).2 =
      .ok (true, [("X".toList, List.replicate 56 'A' ++ "+1e-\n5".toList)]) := by decide +kernel

end Texts
end Asc
end Iode
