import Verif.Model.Ascii

/-!
# Reading a text comes to an end

Every element but the end of the text takes characters away.
-/
namespace Iode
namespace Yy

theorem skip_length (s : Text) : (skipSpaces s).length ≤ s.length := (List.dropWhile_sublist _).length_le

theorem drop_length (p : Char → Bool) (s : Text) : (s.dropWhile p).length ≤ s.length := (List.dropWhile_sublist _).length_le

theorem comment_star {r : Text} (h : ∀ r', r ≠ '/' :: r') : comment ('*' :: r) = comment r := by
  rw [comment.eq_def]
  simp only [if_true]

theorem comment_other {c : Char} (h : c ≠ '*') (r : Text) : comment (c :: r) = comment r := by
  rw [comment.eq_def]
  simp only [if_neg h]

theorem comment_len (s : Text) : ((comment s).1 = .eof ∧ (comment s).2 = []) ∨ (comment s).2.length < s.length := by
  induction s using comment.induct with
  | case1 => exact .inl ⟨rfl, rfl⟩
  | case2 r' => right; rw [comment, if_pos rfl]; simp; omega
  | case3 r h ih =>
    rw [comment_star h]
    rcases ih with ih | ih
    · exact .inl ih
    · right; simp only [List.length_cons]; omega
  | case4 c r h ih =>
    rw [comment_other h]
    rcases ih with ih | ih
    · exact .inl ih
    · right; simp only [List.length_cons]; omega

theorem eol_len (s : Text) : (skipToEol s).length ≤ s.length := by
  induction s with
  | nil => simp [skipToEol]
  | cons c r ih =>
    rw [skipToEol]
    split <;> simp only [List.length_cons] <;> omega

theorem escape_len (s : Text) : (readEscape s).2.length ≤ s.length := by
  cases s with
  | nil => simp [readEscape]
  | cons c r =>
    rw [readEscape.eq_def]
    simp only [List.length_cons]
    repeat' split
    all_goals first
      | omega
      | (simp only [List.length_cons, List.length_nil]; omega)

theorem control_len (s : Text) : (readControl s).2.length ≤ s.length := by
  cases s with
  | nil => simp [readControl]
  | cons c r =>
    rw [readControl]
    repeat' split
    all_goals simp only [List.length_cons]
    all_goals omega

theorem string_len (q : Char) : ∀ (n : Nat) (s : Text), (readString q n s).2.length ≤ s.length
  | 0, s => by simp [readString]
  | n + 1, s => by
    rw [readString.eq_def]
    cases s with
    | nil => simp
    | cons c r =>
      have h1 := string_len q n (readEscape r).2
      have h2 := string_len q n (readControl r).2
      have h3 := string_len q n r
      have h4 := escape_len r
      have h5 := control_len r
      simp only
      repeat' split
      all_goals simp only [List.length_cons]
      all_goals omega

theorem num_len (dbl ee sg : Bool) (acc s : Text) : (readNum dbl ee sg acc s).2.2.length ≤ s.length := by
  induction s generalizing dbl ee sg acc with
  | nil => simp [readNum]
  | cons c r ih =>
    rw [readNum]
    repeat' split
    all_goals simp only [List.length_cons]
    all_goals first
      | (refine le_trans (ih _ _ _ _) ?_; omega)
      | omega

theorem num_len_first {c : Char} (h : isNum c = true) (dbl ee sg : Bool) (acc r : Text) :
    (readNum dbl ee sg acc (c :: r)).2.2.length ≤ r.length := by
  rw [readNum, if_pos h]
  exact num_len _ _ _ _ _

theorem letter_len (s : Text) : (readLetter s).2.length ≤ s.length := by
  have key : ∀ p : Char × Text, p.2.length ≤ s.length → ((p.2.dropWhile (fun c => c ≠ '\'')).drop 1).length ≤ s.length := by
    intro p hp
    have := drop_length (fun c => c ≠ '\'') p.2
    simp only [List.length_drop]
    omega
  cases s with
  | nil => simp [readLetter]
  | cons c r =>
    have h4 := escape_len r
    have h5 := control_len r
    refine key _ ?_
    simp only [List.length_cons]
    split
    · omega
    · split
      · omega
      · simp

theorem from_len (c : Char) (r : Text) : (readFrom c r).2.length ≤ r.length := by
  rw [readFrom.eq_def]
  have h1 := string_len '"' (r.length + 1) r
  have h2 := letter_len r
  have h3 := drop_length isWord r
  split
  · exact h1
  split
  · exact h2
  split
  · exact le_refl _
  split
  · exact h3
  split
  · rename_i h
    exact num_len_first h _ _ _ _ _
  split
  · rename_i h
    have hw : isWord c = true := by
      simp only [Bool.or_eq_true, decide_eq_true_eq] at h
      simp only [isWord, Bool.or_eq_true, decide_eq_true_eq]
      tauto
    simp only [readWord, List.dropWhile_cons, hw, if_true]
    exact h3
  split
  · split
    · split
      · exact num_len _ _ _ _ _
      · exact le_refl _
    · simp
  · exact le_refl _

/-- Every element but the end takes characters away. -/
theorem read_len (s : Text) : ((Yy.read s).1 = .eof ∧ (Yy.read s).2 = []) ∨ (Yy.read s).2.length < s.length := by
  have hs := skip_length s
  rw [Yy.read.eq_def]
  generalize skipSpaces s = x at hs
  cases x with
  | nil => exact .inl ⟨rfl, rfl⟩
  | cons c r =>
    simp only [List.length_cons] at hs
    simp only
    split
    · split
      · rename_i r'
        rcases comment_len r' with h | h
        · exact .inl h
        · right; simp only [List.length_cons] at hs; omega
      · rename_i r'
        have := eol_len r'
        right; simp only [List.length_cons] at hs; simp only; omega
      · have := from_len c r
        right; omega
    · have := from_len c r
      right; omega

theorem readFrom_ne_eof (c : Char) (r : Text) : (readFrom c r).1 ≠ .eof := by
  rw [readFrom.eq_def]
  simp only [numRaw, readLetter]
  repeat' split
  all_goals simp

theorem comment_eof {s : Text} (h : (comment s).1 = .eof) : (comment s).2 = [] := by
  induction s using comment.induct with
  | case1 => rfl
  | case2 r' => rw [comment, if_pos rfl] at h; cases h
  | case3 r h' ih =>
    rw [comment_star h'] at h ⊢
    exact ih h
  | case4 c r h' ih =>
    rw [comment_other h'] at h ⊢
    exact ih h

/-- The end of the text is at the end. -/
theorem read_eof {s : Text} (h : (Yy.read s).1 = .eof) : (Yy.read s).2 = [] := by
  rw [Yy.read.eq_def] at h ⊢
  generalize skipSpaces s = x at h
  cases x with
  | nil => rfl
  | cons c r =>
    simp only at h ⊢
    split
    · rename_i hc
      rw [if_pos hc] at h
      split
      · exact comment_eof h
      · cases h
      · rename_i h1 h2
        split at h
        · rename_i r'
          exact (h1 _ rfl).elim
        · rename_i r'
          exact (h2 _ rfl).elim
        · exact absurd h (readFrom_ne_eof _ _)
    · rename_i hc
      rw [if_neg hc] at h
      exact absurd h (readFrom_ne_eof _ _)

theorem oper_len {κ : Type} (tbl : Keys κ) (c : Char) (s : Text) : (findOper tbl c s).2.length ≤ s.length := by
  have hs := skip_length s
  rw [findOper.eq_def]
  generalize skipSpaces s = x at hs
  repeat' split
  all_goals simp only [List.length_cons, List.length_nil] at *
  all_goals omega

theorem classify_len {κ : Type} (tbl : Keys κ) (p : Raw × Text) : (classify tbl p).2.length ≤ p.2.length := by
  obtain ⟨r, s⟩ := p
  cases r <;> simp only [classify] <;> first | exact oper_len _ _ _ | exact le_refl _

end Yy

namespace Asc
open Yy

/-- What is still to be read. -/
def St.size (st : St) : Nat := st.text.length + if st.back ∧ st.typ ≠ .eof then 1 else 0

/-- The end of the text was read at the end only. -/
def St.Ok (st : St) : Prop := st.typ = .eof → st.text = []

theorem size_le (st : St) : st.size ≤ st.text.length + 1 := by
  rw [St.size]
  split <;> omega

theorem retype_eof {w : Text} {r : Raw} (h : retype w r = .eof) : r = .eof := by
  cases r <;> simp_all [retype]

/-- One element is read: the end, or fewer characters are left. -/
theorem rd_size {st st' : St} {r : Raw} (ho : st.Ok) (h : rd st = .ok (r, st')) :
    st'.Ok ∧ st'.back = false ∧ ((r = .eof ∧ st'.typ = .eof) ∨ (r ≠ .eof ∧ st'.size < st.size)) ∧ st'.size ≤ st.size := by
  rw [rd.eq_def] at h
  split at h
  · rename_i hb
    cases h
    refine ⟨ho, rfl, ?_, ?_⟩
    · by_cases he : st.typ = .eof
      · exact .inl ⟨he, he⟩
      · exact .inr ⟨he, by simp [St.size, hb, he]⟩
    · simp [St.size]
  · rename_i hb
    have hl := read_len st.text
    have he := @read_eof st.text
    cases hp : Yy.read st.text with
    | mk a s =>
    rw [hp] at hl he
    simp only at hl he
    have hsize : st.size = st.text.length := by simp [St.size, hb]
    rw [hp] at h
    have fin : ∀ r', r' ≠ .eof → a ≠ .eof → (⟨r', false, s⟩ : St).Ok ∧ (⟨r', false, s⟩ : St).back = false ∧
        ((a = .eof ∧ (⟨r', false, s⟩ : St).typ = .eof) ∨ (a ≠ .eof ∧ (⟨r', false, s⟩ : St).size < st.size)) ∧
        (⟨r', false, s⟩ : St).size ≤ st.size := by
      intro r' h1 h2
      have hl : s.length < st.text.length := by
        rcases hl with h | h
        · exact absurd h.1 h2
        · exact h
      refine ⟨fun h => absurd h h1, rfl, .inr ⟨h2, ?_⟩, ?_⟩ <;> rw [hsize] <;> simp [St.size] <;> omega
    cases a with
    | eof =>
      cases h
      have : s = [] := he rfl
      subst this
      refine ⟨fun _ => rfl, rfl, .inl ⟨rfl, rfl⟩, ?_⟩
      simp [St.size]
    | err =>
      simp only at h
      cases h
      have hl : s.length < st.text.length := by
        rcases hl with h | h
        · cases h.1
        · exact h
      refine ⟨?_, rfl, .inr ⟨by simp, ?_⟩, ?_⟩
      · intro h
        have := ho (retype_eof h)
        rw [this] at hl
        simp at hl
      all_goals rw [hsize]; simp [St.size]; omega
    | double t =>
      simp only at h
      split at h
      · cases h
        exact fin _ (by simp) (by simp)
      · cases h
    | _ =>
      cases h
      exact fin _ (by simp) (by simp)

theorem classify_eof {κ : Type} (tbl : Keys κ) (r : Raw) (s : Text) : (classify tbl (r, s)).1 = .raw .eof ↔ r = .eof := by
  cases r <;> simp only [classify] <;> first | (constructor <;> intro h <;> first | cases h | rfl | skip)
  all_goals (revert h; split <;> intro h <;> cases h)

theorem lx_size {κ : Type} {tbl : Keys κ} {n : Nat} {st st' : St} {l : Lexed κ} (ho : st.Ok) (h : lx tbl n st = .ok (l, st')) :
    st'.Ok ∧ st'.back = false ∧ ((l = .raw .eof ∧ st'.typ = .eof) ∨ (l ≠ .raw .eof ∧ st'.size < st.size)) ∧ st'.size ≤ st.size := by
  induction n generalizing st with
  | zero => cases h
  | succ n ih =>
    rw [lx] at h
    cases hr : rd st with
    | err => rw [hr] at h; cases h
    | ub => rw [hr] at h; cases h
    | ok p =>
      obtain ⟨r, s1⟩ := p
      rw [hr] at h
      simp only [Res.bind] at h
      obtain ⟨a1, a2, a3, a4⟩ := rd_size ho hr
      split at h
      · rename_i hc
        obtain ⟨b1, b2, b3, b4⟩ := ih a1 h
        refine ⟨b1, b2, ?_, by omega⟩
        rcases b3 with b3 | ⟨b3, b5⟩
        · exact .inl b3
        · exact .inr ⟨b3, by omega⟩
      · cases h
        have hl := classify_len tbl (r, s1.text)
        have he := classify_eof tbl r s1.text
        simp only at hl
        have hsz : St.size { s1 with text := (classify tbl (r, s1.text)).2 } ≤ s1.size := by
          simp only [St.size, a2]
          simp
          exact hl
        refine ⟨?_, a2, ?_, by omega⟩
        · intro ht
          have := a1 ht
          simp only
          rw [this] at hl ⊢
          exact List.length_eq_zero_iff.1 (by simpa using hl)
        · rcases a3 with ⟨rfl, a3⟩ | ⟨a3, a5⟩
          · exact .inl ⟨he.2 rfl, a3⟩
          · exact .inr ⟨fun h => a3 (he.1 h), by omega⟩

theorem rd_ne_err (st : St) : rd st ≠ .err := by
  rw [rd.eq_def]
  split
  · simp
  · repeat' split
    all_goals simp

/-- There is always fuel for the comments. -/
theorem lx_ne_err {κ : Type} {tbl : Keys κ} {n : Nat} {st : St} (ho : st.Ok) (hn : st.size < n) : lx tbl n st ≠ .err := by
  induction n generalizing st with
  | zero => omega
  | succ n ih =>
    rw [lx]
    cases hr : rd st with
    | err => exact absurd hr (rd_ne_err st)
    | ub => simp [Res.bind]
    | ok p =>
      obtain ⟨r, s1⟩ := p
      simp only [Res.bind]
      obtain ⟨a1, a2, a3, a4⟩ := rd_size ho hr
      split
      · rename_i hc
        rcases a3 with ⟨h, _⟩ | ⟨_, h⟩
        · rw [hc] at h; cases h
        · exact ih a1 (by omega)
      · simp

theorem lxs_ne_err {κ : Type} {tbl : Keys κ} {st : St} (ho : st.Ok) : lxs tbl st ≠ .err :=
  lx_ne_err ho (by have := size_le st; omega)

theorem lxs_size {κ : Type} {tbl : Keys κ} {st st' : St} {l : Lexed κ} (ho : st.Ok) (h : lxs tbl st = .ok (l, st')) :
    st'.Ok ∧ st'.back = false ∧ ((l = .raw .eof ∧ st'.typ = .eof) ∨ (l ≠ .raw .eof ∧ st'.size < st.size)) ∧ st'.size ≤ st.size :=
  lx_size ho h

theorem unread_size {κ : Type} {st st' : St} {l : Lexed κ} (h : st'.Ok) (hb : st'.back = false)
    (hs : (l = .raw .eof ∧ st'.typ = .eof) ∨ (l ≠ .raw .eof ∧ st'.size < st.size)) (hle : st'.size ≤ st.size) :
    (unread st').Ok ∧ (unread st').size ≤ st.size := by
  refine ⟨h, ?_⟩
  generalize st.size = n at hs hle
  have e : st'.size = st'.text.length := by simp [St.size, hb]
  rw [e] at hs hle
  simp only [St.size, unread, true_and]
  rcases hs with ⟨_, h1⟩ | ⟨_, h1⟩
  · simp [h1]
    exact hle
  · split <;> omega

/-- A result that is no failure of the loop, and where nothing new is to be read. -/
def Ends {α : Type} (n : Nat) (r : Res (α × St)) : Prop := r ≠ .err ∧ ∀ a st, r = .ok (a, st) → st.Ok ∧ st.size ≤ n

theorem Ends.ok {α : Type} {n : Nat} {a : α} {st : St} (h : st.Ok ∧ st.size ≤ n) : Ends n (.ok (a, st)) :=
  ⟨by simp, by rintro a' st' e; cases e; exact h⟩

theorem Ends.mono {α : Type} {n m : Nat} {r : Res (α × St)} (h : Ends n r) (hm : n ≤ m) : Ends m r :=
  ⟨h.1, fun a st e => ⟨(h.2 a st e).1, le_trans (h.2 a st e).2 hm⟩⟩

theorem Ends.ub {α : Type} {n : Nat} : Ends n (.ub : Res (α × St)) := ⟨by simp, by rintro a' st' e; cases e⟩

theorem readReal_ends {tbl : Keys Nat} {n : Nat} {neg : Bool} {st : St} (ho : st.Ok) (hn : st.size < n) :
    Ends st.size (readReal tbl n neg st) := by
  induction n generalizing st neg with
  | zero => omega
  | succ n ih =>
    rw [readReal]
    cases hl : lxs tbl st with
    | err => exact absurd hl (lxs_ne_err ho)
    | ub => exact Ends.ub
    | ok p =>
      obtain ⟨l, s1⟩ := p
      obtain ⟨a1, a2, a3, a4⟩ := lxs_size ho hl
      have hu := unread_size a1 a2 a3 a4
      have hmin : l ≠ .raw .eof → Ends st.size (readReal tbl n true s1) := by
        intro hne
        rcases a3 with ⟨h, _⟩ | ⟨_, h⟩
        · exact absurd h hne
        · exact (ih a1 (by omega)).mono (by omega)
      simp only [Res.bind]
      cases l with
      | key k =>
        simp only
        split
        · exact hmin (by simp)
        · exact Ends.ok hu
      | raw r =>
        cases r with
        | double t => exact Ends.ok ⟨a1, a4⟩
        | long d => exact Ends.ok ⟨a1, a4⟩
        | special c =>
          simp only
          split
          · exact hmin (by simp)
          · split
            · exact Ends.ok ⟨a1, a4⟩
            · exact Ends.ok hu
        | word w =>
          simp only
          split
          · exact Ends.ok ⟨a1, a4⟩
          · exact Ends.ok hu
        | _ => exact Ends.ok hu

theorem real_ends {tbl : Keys Nat} {st : St} (ho : st.Ok) : Ends st.size (real tbl st) :=
  readReal_ends ho (by have := size_le st; omega)

theorem readVals_ends {n : Nat} {st : St} (ho : st.Ok) : Ends st.size (readVals n st) := by
  induction n generalizing st with
  | zero => exact Ends.ok ⟨ho, le_refl _⟩
  | succ n ih =>
    rw [readVals]
    have h1 := real_ends (tbl := tblKeys) ho
    cases hr : real tblKeys st with
    | err => exact absurd hr h1.1
    | ub => exact Ends.ub
    | ok p =>
      obtain ⟨v, s1⟩ := p
      obtain ⟨b1, b2⟩ := h1.2 _ _ hr
      have h2 := ih b1
      simp only [Res.bind]
      cases hv : readVals n s1 with
      | err => exact absurd hv h2.1
      | ub => exact Ends.ub
      | ok q =>
        obtain ⟨vs, s2⟩ := q
        obtain ⟨c1, c2⟩ := h2.2 _ _ hv
        exact Ends.ok ⟨c1, le_trans c2 b2⟩

theorem skipVals_ends {n : Nat} {st : St} (ho : st.Ok) (hn : st.size < n) :
    skipVals n st ≠ .err ∧ ∀ st', skipVals n st = .ok st' → st'.Ok ∧ st'.size ≤ st.size := by
  induction n generalizing st with
  | zero => omega
  | succ n ih =>
    rw [skipVals]
    cases hl : lxs tblKeys st with
    | err => exact absurd hl (lxs_ne_err ho)
    | ub => exact ⟨by simp [Res.bind], by intro st' h; cases h⟩
    | ok p =>
      obtain ⟨l, s1⟩ := p
      obtain ⟨a1, a2, a3, a4⟩ := lxs_size ho hl
      have hu := unread_size a1 a2 a3 a4
      have hmin : l ≠ .raw .eof → skipVals n s1 ≠ .err ∧ ∀ st', skipVals n s1 = .ok st' → st'.Ok ∧ st'.size ≤ st.size := by
        intro hne
        rcases a3 with ⟨h, _⟩ | ⟨_, h⟩
        · exact absurd h hne
        · obtain ⟨h1, h2⟩ := ih a1 (by omega)
          exact ⟨h1, fun st' e => ⟨(h2 st' e).1, by have := (h2 st' e).2; omega⟩⟩
      simp only [Res.bind]
      cases l with
      | key k => exact hmin (by simp)
      | raw r =>
        cases r with
        | eof => exact ⟨by simp, by intro st' h; cases h; exact hu⟩
        | word w =>
          simp only
          split
          · exact hmin (by simp)
          · exact ⟨by simp, by intro st' h; cases h; exact hu⟩
        | _ => exact hmin (by simp)

theorem readVec_ends {nb : Nat} {st : St} (ho : st.Ok) : Ends st.size (readVec nb st) := by
  rw [readVec]
  have h1 := readVals_ends (n := nb) ho
  cases hr : readVals nb st with
  | err => exact absurd hr h1.1
  | ub => exact Ends.ub
  | ok p =>
    obtain ⟨v, s1⟩ := p
    obtain ⟨b1, b2⟩ := h1.2 _ _ hr
    obtain ⟨h2, h3⟩ := skipVals_ends (n := s1.text.length + 2) b1 (by have := size_le s1; omega)
    simp only [Res.bind]
    cases hv : skipVals (s1.text.length + 2) s1 with
    | err => exact absurd hv h2
    | ub => exact Ends.ub
    | ok q =>
      obtain ⟨c1, c2⟩ := h3 _ hv
      exact Ends.ok ⟨c1, by omega⟩

theorem varLoop_ends {nb : Int} (hnb : 0 ≤ nb) {n : Nat} {st : St} (ho : st.Ok) (hn : st.size < n) (db : SMap (List Printf.Dbl)) :
    varLoop nb n st db ≠ .err := by
  induction n generalizing st db with
  | zero => omega
  | succ n ih =>
    rw [varLoop]
    cases hl : lxs tblKeys st with
    | err => exact absurd hl (lxs_ne_err ho)
    | ub => simp [Res.bind]
    | ok p =>
      obtain ⟨l, s1⟩ := p
      obtain ⟨a1, a2, a3, a4⟩ := lxs_size ho hl
      have hlt : l ≠ .raw .eof → s1.size < n := by
        intro hne
        rcases a3 with ⟨h, _⟩ | ⟨_, h⟩
        · exact absurd h hne
        · omega
      simp only [Res.bind]
      cases l with
      | key k => exact ih a1 (hlt (by simp)) db
      | raw r =>
        cases r with
        | eof => simp
        | word w =>
          have hlt := hlt (by simp)
          simp only
          split
          · simp
          · rw [if_neg (by omega)]
            have h1 := readVec_ends (nb := nb.toNat) a1
            cases hr : readVec nb.toNat s1 with
            | err => exact absurd hr h1.1
            | ub => simp
            | ok q =>
              obtain ⟨v, s2⟩ := q
              obtain ⟨b1, b2⟩ := h1.2 _ _ hr
              exact ih b1 (by omega) _
        | _ => exact ih a1 (hlt (by simp)) db

theorem readPer_size {tbl : Keys Nat} {st st' : St} {o : Option Period} (ho : st.Ok) (h : readPer tbl st = .ok (o, st')) :
    st'.Ok ∧ st'.size ≤ st.size := by
  rw [readPer] at h
  cases hl : lxs tbl st with
  | err => rw [hl] at h; cases h
  | ub => rw [hl] at h; cases h
  | ok p =>
    obtain ⟨l, s1⟩ := p
    rw [hl] at h
    obtain ⟨a1, a2, a3, a4⟩ := lxs_size ho hl
    simp only [Res.bind] at h
    cases l with
    | key k => cases h; exact ⟨a1, a4⟩
    | raw r =>
      cases r with
      | long d =>
        simp only at h
        have b1 : St.Ok { s1 with text := s1.text.drop 1 } := by
          intro ht
          have := a1 ht
          simp only [this, List.drop_nil]
        have b2 : St.size { s1 with text := s1.text.drop 1 } ≤ s1.size := by
          simp only [St.size, List.length_drop]
          omega
        cases hm : lxs tbl { s1 with text := s1.text.drop 1 } with
        | err => rw [hm] at h; cases h
        | ub => rw [hm] at h; cases h
        | ok q =>
          obtain ⟨l2, s2⟩ := q
          rw [hm] at h
          obtain ⟨c1, _, _, c4⟩ := lxs_size b1 hm
          have c5 : s2.size ≤ st.size := le_trans c4 (le_trans b2 a4)
          simp only at h
          cases l2 with
          | key k => cases h; exact ⟨c1, c5⟩
          | raw r2 =>
            cases r2 with
            | long e =>
              simp only at h
              split at h
              · cases h; exact ⟨c1, c5⟩
              · cases h
              · cases h
            | _ => cases h; exact ⟨c1, c5⟩
      | _ => cases h; exact ⟨a1, a4⟩

theorem readSmpl_size {tbl : Keys Nat} {st st' : St} {o : Option Sample} (ho : st.Ok) (h : readSmpl tbl st = .ok (o, st')) :
    st'.Ok ∧ st'.size ≤ st.size := by
  rw [readSmpl] at h
  cases hl : readPer tbl st with
  | err => rw [hl] at h; cases h
  | ub => rw [hl] at h; cases h
  | ok p =>
    obtain ⟨l, s1⟩ := p
    rw [hl] at h
    have a1 := readPer_size ho hl
    simp only [Res.bind] at h
    cases l with
    | none => cases h; exact a1
    | some one =>
      simp only at h
      cases hm : readPer tbl s1 with
      | err => rw [hm] at h; cases h
      | ub => rw [hm] at h; cases h
      | ok q =>
        obtain ⟨l2, s2⟩ := q
        rw [hm] at h
        have c1 := readPer_size a1.1 hm
        have c2 : s2.Ok ∧ s2.size ≤ st.size := ⟨c1.1, le_trans c1.2 a1.2⟩
        simp only at h
        cases l2 with
        | none => cases h; exact c2
        | some two =>
          simp only at h
          repeat' split at h
          all_goals first
            | (cases h; exact c2)
            | cases h

end Asc
end Iode
