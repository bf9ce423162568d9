import Verif.Model.AscScl
import Verif.Spec.AscScl
import Verif.Lemmas.AscText
import Verif.Lemmas.DblDigits
import Verif.Lemmas.YyLen

/-! # Reading texts of scalars -/
namespace Iode
namespace Asc
open Yy Written Printf Decimals
open Lec.Written (Gap NameEnd NumEnd NameCh Digit White)

theorem reads_na' {s : Yy.Text} (hs : NameEnd s) :
    Reads noKeys ('n' :: 'a' :: s) (.raw (.word ['n', 'a'])) (.word ['n', 'a']) s :=
  reads_word (tbl := noKeys) (w := ['n', 'a']) (by decide) (by intro c h; cases h; decide) (by decide) hs

theorem reads_minus' (s : Yy.Text) : Reads noKeys ('-' :: s) (.raw (.special '-')) (.special '-') s :=
  reads_of (Lec.read_special (by decide) s) (by simp) (by simp) (by simp) rfl

theorem reads_mark' {c : Char} (hc : c = '.' ∨ c = '/') {s : Yy.Text} (hs : BlankEnd s) :
    Reads noKeys (c :: s) (.raw (.special c)) (.special c) s := by
  have key : Yy.read (c :: s) = (.special c, s) := by
    rcases hc with rfl | rfl
    · rw [Yy.read, skipSpaces_stop (by decide)]
      simp only
      rw [if_neg (by decide), readFrom.eq_def, if_neg (by decide), if_neg (by decide), if_neg (by decide), if_neg (by decide),
        if_neg (by decide), if_neg (by decide), if_pos rfl]
      cases s with
      | nil => rfl
      | cons a r =>
        simp only
        rw [if_neg]
        have := hs a rfl
        simp only [White] at this
        simp only [isNum, Bool.and_eq_true, decide_eq_true_eq]
        omega
    · refine Lec.read_slash (fun h => ?_) (fun h => ?_)
      · have := hs _ h
        revert this
        decide
      · have := hs _ h
        revert this
        decide
  exact reads_of key (by simp) (by simp) (by simp) rfl

/-- One value in front of a text. -/
theorem vals_head' {v : Dbl} {vs : List Dbl} {x s' : Yy.Text} (h : Vals na ieee (v :: vs) x s') :
    ∃ s r, (∀ typ, real noKeys ⟨typ, false, x⟩ = .ok (v, ⟨r, false, s⟩)) ∧ Vals na ieee vs s s' := by
  cases h with
  | @na g _ s _ hg he hv =>
    have hr := reads_gap (reads_na' he) hg
    refine ⟨s, .word ['n', 'a'], fun typ => ?_, hv⟩
    rw [real, readReal, hr.lxs]
    simp only [Res.bind]
    rw [if_pos trivial]
  | @mark g c _ s _ hg hk he hv =>
    have hr := reads_gap (reads_mark' hk he) hg
    refine ⟨s, .special c, fun typ => ?_, hv⟩
    rw [real, readReal, hr.lxs]
    simp only [Res.bind]
    rw [if_neg (by rcases hk with rfl | rfl <;> decide), if_pos hk.symm]
  | @num g t q _ s _ hg ht hl he hv =>
    obtain ⟨r, h1, h2⟩ := reads_num (tbl := noKeys) ht hl he
    have h1 := reads_gap h1 hg
    exact ⟨s, r, fun typ => by rw [real, readReal_num h1 h2, signed_false], hv⟩
  | @neg g g' t q _ s _ hg hg' ht hl he hv =>
    obtain ⟨r, h1, h2⟩ := reads_num (tbl := noKeys) ht hl he
    have h1 := reads_gap h1 hg'
    have h0 := reads_gap (reads_minus' (g' ++ (t ++ s))) hg
    refine ⟨s, r, fun typ => ?_, hv⟩
    rw [real, readReal, h0.lxs]
    simp only [Res.bind]
    rw [if_pos trivial]
    obtain ⟨k, hk⟩ : ∃ k, (g ++ '-' :: (g' ++ (t ++ s))).length + 1 = k + 1 := ⟨_, rfl⟩
    simp only [hk]
    rw [readReal_num h1 h2, ieee_neg]

/-- No value at the end of the values. -/
theorem real_halt {st : St} {r : Raw} {s : Yy.Text} (hl : lxs noKeys st = .ok (.raw r, ⟨r, false, s⟩)) (h : Halt r)
    (hn : r ≠ .word ['n', 'a']) : real noKeys st = .ok (na, ⟨r, true, s⟩) := by
  rw [real, readReal, hl]
  simp only [Res.bind]
  rcases h with rfl | ⟨w, rfl⟩
  · rfl
  · simp only
    rw [if_neg (fun e => hn (by rw [e]))]
    rfl

/-- The scalar with these values. -/
def sclOf (vs : List Dbl) : Scl :=
  ⟨orElse isNumber (ieee (9 / 10)) vs[0]?, orElse isNumber (.num 1) vs[1]?, vs[2]?.getD na⟩

theorem orElse_na (d : Dbl) : (if isNumber na then na else d) = d := by rw [na_number]; rfl

theorem readScl_vals {s' s'' : Yy.Text} {r : Raw} (hr : Reads noKeys s' (.raw r) r s'') (hst : Halt r) {vs : List Dbl}
    (hlen : vs.length ≤ 3) (hn : vs.length = 3 ∨ r ≠ .word ['n', 'a']) {x : Yy.Text} (h : Vals na ieee vs x s') (typ : Raw) :
    readScl ⟨typ, false, x⟩ = .ok (sclOf vs, ⟨r, true, s''⟩) := by
  have hb := halt_back hst s''
  have hskip : ∀ n, skipText (n + 1) ⟨r, true, s''⟩ = .ok ⟨r, true, s''⟩ := skipText_halt hb hst
  match vs, hlen, h with
  | [], _, h =>
    cases h
    have hn : r ≠ .word ['n', 'a'] := by rcases hn with h | h; exact absurd h (by simp); exact h
    rw [readScl, real_halt (hr.lxs typ) hst hn]
    simp only [Res.bind]
    rw [real_halt hb hst hn]
    simp only
    rw [real_halt hb hst hn]
    simp only
    rw [hskip, orElse_na, orElse_na]
    rfl
  | [a], _, h =>
    obtain ⟨s1, r1, e1, h1⟩ := vals_head' h
    cases h1
    have hn : r ≠ .word ['n', 'a'] := by rcases hn with h | h; exact absurd h (by simp); exact h
    rw [readScl, e1]
    simp only [Res.bind]
    rw [real_halt (hr.lxs _) hst hn]
    simp only
    rw [real_halt hb hst hn]
    simp only
    rw [hskip, orElse_na]
    rfl
  | [a, b], _, h =>
    obtain ⟨s1, r1, e1, h1⟩ := vals_head' h
    obtain ⟨s2, r2, e2, h2⟩ := vals_head' h1
    cases h2
    have hn : r ≠ .word ['n', 'a'] := by rcases hn with h | h; exact absurd h (by simp); exact h
    rw [readScl, e1]
    simp only [Res.bind]
    rw [e2]
    simp only
    rw [real_halt (hr.lxs _) hst hn]
    simp only
    rw [hskip]
    rfl
  | [a, b, c], _, h =>
    obtain ⟨s1, r1, e1, h1⟩ := vals_head' h
    obtain ⟨s2, r2, e2, h2⟩ := vals_head' h1
    obtain ⟨s3, r3, e3, h3⟩ := vals_head' h2
    cases h3
    rw [readScl, e1]
    simp only [Res.bind]
    rw [e2]
    simp only
    rw [e3]
    simp only
    rw [skipText_halt (hr.lxs _) hst]
    rfl

/-- The element a text of scalars begins with, and what is behind it. -/
def CEntry : List (Yy.Text × List Dbl) → Raw → Yy.Text → Prop
  | [], r, _ => r = .eof
  | (w, vs) :: rest, r, s => r = .word w ∧ ObjName w ∧ vs.length ≤ 3 ∧
      (vs.length = 3 ∨ ∀ e, rest.head? = some e → e.1 ≠ ['n', 'a']) ∧ ∃ s', Vals na ieee vs s s' ∧ CLaid na ieee rest s'

theorem claid_entry {defs : List (Yy.Text × List Dbl)} {x : Yy.Text} (h : CLaid na ieee defs x) :
    ∃ r s, Reads noKeys x (.raw r) r s ∧ Halt r ∧ CEntry defs r s := by
  cases h with
  | nil hg =>
    have := reads_gap (reads_eof noKeys) hg
    rw [List.append_nil] at this
    exact ⟨_, _, this, .inl rfl, rfl⟩
  | @scl g w vs rest s s' hg hw he hv h3 hn hl =>
    exact ⟨_, _, reads_gap (reads_objName hw he) hg, .inr ⟨w, rfl⟩, rfl, hw, h3, hn, s', hv, hl⟩

/-- The database after a list of scalars. -/
def putScls (defs : List (Yy.Text × List Dbl)) (db : SMap Scl) : SMap Scl := defs.foldl (fun db e => putScl e.1 (sclOf e.2) db) db

theorem entry_na {defs : List (Yy.Text × List Dbl)} {r : Raw} {s : Yy.Text} (h : CEntry defs r s)
    (hn : ∀ e, defs.head? = some e → e.1 ≠ ['n', 'a']) : r ≠ .word ['n', 'a'] := by
  cases defs with
  | nil => cases h; simp
  | cons e rest =>
    obtain ⟨w, vs⟩ := e
    rw [h.1]
    intro he
    exact hn _ rfl (Raw.word.inj he)

theorem sclLoop_entry : ∀ {defs : List (Yy.Text × List Dbl)} {st : St} {r : Raw} {s : Yy.Text}
    (_ : lxs noKeys st = .ok (.raw r, ⟨r, false, s⟩)) (_ : CEntry defs r s) (n : Nat) (_ : defs.length < n) (db : SMap Scl),
    sclLoop n st db = .ok (putScls defs db) := by
  intro defs
  induction defs with
  | nil =>
    intro st r s hl he n hn db
    cases he
    cases n with
    | zero => omega
    | succ n =>
      rw [sclLoop, hl]
      rfl
  | cons e rest ih =>
    obtain ⟨w, vs⟩ := e
    intro st r s hl he n hn db
    obtain ⟨rfl, hw, hlen, hna, s', hv, hrest⟩ := he
    obtain ⟨r', s'', h1, h2, h3⟩ := claid_entry hrest
    cases n with
    | zero => omega
    | succ n =>
      rw [sclLoop, hl]
      simp only [Res.bind]
      rw [readScl_vals h1 h2 hlen (hna.imp id (entry_na h3)) hv]
      simp only
      rw [ih (halt_back h2 s'') h3 n (by simp at hn; omega)]
      rfl

theorem claid_length {defs : List (Yy.Text × List Dbl)} {s : Yy.Text} (h : CLaid na ieee defs s) : defs.length ≤ s.length := by
  induction h with
  | nil => simp
  | @scl g w vs r s s' _ hw _ hv _ _ _ ih =>
    have := vals_length hv
    have := List.length_pos_iff.2 hw.ne
    simp
    omega

theorem loadScls_laid {defs : List (Yy.Text × List Dbl)} {t : Yy.Text} (h : CLaid na ieee defs (expand 0 t)) :
    loadScls t = .ok (putScls defs []) := by
  obtain ⟨r, s, h1, _, h3⟩ := claid_entry h
  have := claid_length h
  rw [loadScls, sclLoop_entry (h1.lxs .err) h3 _ (by omega)]

theorem claid_expand {missing : Dbl} {rnd : Rat → Dbl} {defs : List (Yy.Text × List Dbl)} {s : Yy.Text}
    (h : CLaid missing rnd defs s) (hc : Lec.Clean s) (col : Nat) : CLaid missing rnd defs (expand col s) := by
  induction h generalizing col with
  | nil hg =>
    obtain ⟨g', c1, h1, e1⟩ := Lec.expand_gap hg hc col
    have := e1 []
    rw [List.append_nil] at this
    rw [this, expand, List.append_nil]
    exact .nil h1
  | @scl g w vs r s s' hg hw he hv h3 hn _ ih =>
    obtain ⟨g', c1, h1, e1⟩ := Lec.expand_gap hg hc.left col
    obtain ⟨c2, e2⟩ := Lec.expand_plains (fun c hc => Lec.nameCh_plain (hw.all c hc)) c1
    have hs : Lec.Clean s := hc.right.right
    obtain ⟨h5, c3, h4⟩ := vals_expand hv hs c2
    rw [e1, e2]
    exact .scl h1 hw (Lec.nameEnd_expand he hs c2) h4 h3 hn (ih h5 c3)

theorem claid_names {missing : Dbl} {rnd : Rat → Dbl} {defs : List (Yy.Text × List Dbl)} {s : Yy.Text}
    (h : CLaid missing rnd defs s) : ∀ e ∈ defs, ObjName e.1 := by
  induction h with
  | nil => intro e he; cases he
  | scl _ hw _ _ _ _ _ ih =>
    intro e he
    rcases List.mem_cons.1 he with rfl | he
    · exact hw
    · exact ih e he

/-! ## Names -/

theorem lower_name {c : Char} (h : NameCh c) : isLowerC (toLowerC c) = true ∨ isDigitC (toLowerC c) = true ∨ toLowerC c = '_' := by
  have : ∀ n < 128, NameCh (Char.ofNat n) → (isLowerC (toLowerC (Char.ofNat n)) = true ∨
      isDigitC (toLowerC (Char.ofNat n)) = true ∨ toLowerC (Char.ofNat n) = '_') := by
    decide +kernel
  have h1 := this c.toNat (Lec.nameCh_lt h)
  rw [Char.ofNat_toNat] at h1
  exact h1 h

theorem lower_digit {c : Char} (h : NameCh c) (hd : ¬ Digit c) : isLowerC (toLowerC c) = true ∨ toLowerC c = '_' := by
  have : ∀ n < 128, NameCh (Char.ofNat n) → ¬ Digit (Char.ofNat n) → (isLowerC (toLowerC (Char.ofNat n)) = true ∨
      toLowerC (Char.ofNat n) = '_') := by
    simp only [Digit]
    decide +kernel
  have h1 := this c.toNat (Lec.nameCh_lt h)
  rw [Char.ofNat_toNat] at h1
  exact h1 h hd

theorem putScl_name {w : Yy.Text} (h : ObjName w) (v : Scl) (db : SMap Scl) :
    putScl w v db = SMap.insert (w.map toLowerC) v db := by
  have hk : toKey .scalars (w.take 20) = w.map toLowerC := by
    rw [List.take_of_length_le h.short]
    simp only [toKey, ObjType.mode, toLower, trim_name h.all]
  have hs := h.short
  have hc : checkName .scalars (w.map toLowerC) = true := by
    cases w with
    | nil => exact absurd rfl h.ne
    | cons c r =>
      simp only [List.length_cons] at hs
      simp only [List.map_cons, checkName, List.length_cons, List.length_map, Bool.and_eq_true, decide_eq_true_eq, List.all_eq_true]
      refine ⟨⟨⟨by omega, ?_⟩, ?_⟩, by omega⟩
      · rcases lower_digit (h.all c (by simp)) (h.head c rfl) with h1 | h1 <;> simp [nameHeadOk, isLetterFor, h1]
      · intro x hx
        obtain ⟨y, hy, rfl⟩ := List.mem_map.1 hx
        rcases lower_name (h.all y (by simp [hy])) with h1 | h1 | h1 <;> simp [nameTailOk, isLetterFor, h1]
  rw [putScl, hk, if_pos hc]

end Asc
end Iode
