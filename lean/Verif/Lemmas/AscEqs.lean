import Verif.Model.AscEqs
import Verif.Spec.AscEqs
import Verif.Lemmas.AscText
import Verif.Lemmas.YyLen

/-! # Reading texts of equations -/
namespace Iode
namespace Asc
open Yy Written Printf Decimals
open Lec.Written (Gap NameEnd NumEnd NameCh Digit White Digits dec)

/-! ## Key words -/

theorem reads_key {w s : Yy.Text} {k : Nat} (hk : findWord eqKeys w = some k) (hne : w ≠ [])
    (hh : ∀ c, w.head? = some c → ¬ Digit c) (hw : ∀ x ∈ w, NameCh x) (hs : NameEnd s) :
    Reads eqKeys (w ++ s) (.key k) (.word w) s := by
  have := reads_word (tbl := eqKeys) hne hh hw hs
  rwa [hk] at this

theorem oper_none {c : Char} (h : operKeys eqKeys c = none) (s : Yy.Text) : findOper eqKeys c s = (none, s) := by
  rw [findOper, h]

theorem reads_open (s : Yy.Text) : Reads eqKeys ('{' :: s) (.key 10) (.special '{') s := by
  have h : operKeys eqKeys '{' = some (10, []) := by decide +kernel
  refine reads_of (Lec.read_special (by decide) s) (by simp) (by simp) (by simp) ?_
  simp only [classify, findOper, h]

theorem reads_close (s : Yy.Text) : Reads eqKeys ('}' :: s) (.key 11) (.special '}') s := by
  have h : operKeys eqKeys '}' = some (11, []) := by decide +kernel
  refine reads_of (Lec.read_special (by decide) s) (by simp) (by simp) (by simp) ?_
  simp only [classify, findOper, h]

theorem reads_dash (s : Yy.Text) : Reads eqKeys ('-' :: s) (.raw (.special '-')) (.special '-') s := by
  have h : operKeys eqKeys '-' = none := by decide +kernel
  refine reads_of (Lec.read_special (by decide) s) (by simp) (by simp) (by simp) ?_
  simp only [classify, findOper, h]

theorem reads_missing {s : Yy.Text} (hs : NameEnd s) :
    Reads eqKeys ('n' :: 'a' :: s) (.raw (.word ['n', 'a'])) (.word ['n', 'a']) s := by
  have := reads_word (tbl := eqKeys) (w := ['n', 'a']) (by decide) (by intro c h; cases h; decide) (by decide) hs
  rwa [show findWord eqKeys ['n', 'a'] = none by decide +kernel] at this

theorem read_mark {c : Char} (hc : c = '.' ∨ c = '/') {s : Yy.Text} (hs : BlankEnd s) : Yy.read (c :: s) = (.special c, s) := by
  rcases hc with rfl | rfl
  · rw [Yy.read, skipSpaces_stop (by decide)]
    simp only
    rw [if_neg (by decide), readFrom.eq_def, if_neg (by decide), if_neg (by decide), if_neg (by decide), if_neg (by decide),
      if_neg (by decide), if_neg (by decide), if_pos rfl]
    cases s with
    | nil => rfl
    | cons a r =>
      simp only
      rw [if_neg]
      have := hs a rfl
      simp only [White] at this
      simp only [isNum, Bool.and_eq_true, decide_eq_true_eq]
      omega
  · refine Lec.read_slash (fun h => ?_) (fun h => ?_)
    · have := hs _ h
      revert this
      decide
    · have := hs _ h
      revert this
      decide

theorem reads_point {c : Char} (hc : c = '.' ∨ c = '/') {s : Yy.Text} (hs : BlankEnd s) :
    Reads eqKeys (c :: s) (.raw (.special c)) (.special c) s := by
  have h : operKeys eqKeys c = none := by rcases hc with rfl | rfl <;> decide +kernel
  refine reads_of (read_mark hc hs) (by simp) (by simp) (by simp) ?_
  simp only [classify, findOper, h]

/-- One value. -/
theorem real_val {v : Dbl} {x s : Yy.Text} (h : Vals na ieee [v] x s) :
    ∃ r, ∀ typ, real eqKeys ⟨typ, false, x⟩ = .ok (v, ⟨r, false, s⟩) := by
  cases h with
  | @na g _ s _ hg he hv =>
    cases hv
    have hr := reads_gap (reads_missing he) hg
    refine ⟨.word ['n', 'a'], fun typ => ?_⟩
    rw [real, readReal, hr.lxs]
    simp only [Res.bind]
    rw [if_pos trivial]
  | @mark g c _ s _ hg hk he hv =>
    cases hv
    have hr := reads_gap (reads_point hk he) hg
    refine ⟨.special c, fun typ => ?_⟩
    rw [real, readReal, hr.lxs]
    simp only [Res.bind]
    rw [if_neg (by rcases hk with rfl | rfl <;> decide), if_pos hk.symm]
  | @num g t q _ s _ hg ht hl he hv =>
    cases hv
    obtain ⟨r, h1, h2⟩ := reads_num (tbl := eqKeys) ht hl he
    have h1 := reads_gap h1 hg
    exact ⟨r, fun typ => by rw [real, readReal_num h1 h2, signed_false]⟩
  | @neg g g' t q _ s _ hg hg' ht hl he hv =>
    cases hv
    obtain ⟨r, h1, h2⟩ := reads_num (tbl := eqKeys) ht hl he
    have h1 := reads_gap h1 hg'
    have h0 := reads_gap (reads_dash (g' ++ (t ++ s))) hg
    refine ⟨r, fun typ => ?_⟩
    rw [real, readReal, h0.lxs]
    simp only [Res.bind]
    rw [if_pos trivial]
    obtain ⟨k, hk⟩ : ∃ k, (g ++ '-' :: (g' ++ (t ++ s))).length + 1 = k + 1 := ⟨_, rfl⟩
    simp only [hk]
    rw [readReal_num h1 h2, ieee_neg]

theorem readLong_digits {g d s : Yy.Text} (hg : Gap g) (hd : Digits d) (hne : d ≠ []) (hl : d.length ≤ 9) (hs : NumEnd s)
    (n : Nat) (neg : Bool) (typ : Raw) :
    readLong eqKeys (n + 1) neg ⟨typ, false, g ++ (d ++ s)⟩ = .ok (if neg then -(dec d : Int) else dec d, ⟨.long d, false, s⟩) := by
  have h : Reads eqKeys (d ++ s) (.raw (.long d)) (.long d) s :=
    reads_of (Lec.read_long hd hne hl hs) (by simp) (by simp) (by simp) rfl
  rw [readLong, (reads_gap h hg).lxs]
  simp only [Res.bind]
  rw [Lec.natOf_eq]

theorem readStr_lit {g t b : Yy.Text} (hg : Gap g) (h : Lit t b) (hn : ∀ c ∈ t, c.toNat ≠ 0) (s : Yy.Text) (typ : Raw) :
    readStr ⟨typ, false, g ++ '"' :: (b ++ '"' :: s)⟩ = .ok (t, ⟨.string t, false, s⟩) := by
  rw [readStr, (reads_gap (reads_string h s) hg).lxs]
  simp only [Res.bind]
  rw [cstr_self hn]

/-! ## What is said of an equation -/

/-- The entries that are accepted. -/
def ItemOk (cv : Conv) : Item → Prop
  | .sample s => PerOk s.start ∧ PerOk s.stop ∧ Sample.ofPeriods s.start s.stop = .ok s
  | .block t => t ≠ [] ∧ ∀ c ∈ t, c.toNat ≠ 0
  | .comment t => (∃ u, toUtf8 cv t = some u ∧ u ≠ []) ∧ ∀ c ∈ t, c.toNat ≠ 0
  | .instruments t => (∃ u, toUtf8 cv t = some u ∧ u ≠ []) ∧ ∀ c ∈ t, c.toNat ≠ 0
  | _ => True

/-- What an entry changes. -/
def applyItem (cv : Conv) (a : Acc) : Item → Acc
  | .method m => { a with method := m }
  | .date d => { a with date := d }
  | .sample s => { a with smpl := some s }
  | .block t => { a with block := t }
  | .comment t => { a with comment := (toUtf8 cv t).getD [] }
  | .instruments t => { a with instruments := (toUtf8 cv t).getD [] }
  | .test i v => { a with tests := a.tests.set i (toFloat v) }

/-- An entry is read. -/
theorem eqItems_step {cv : Conv} {g w s : Yy.Text} {k : Nat} (hg : Gap g) (hk : findWord eqKeys w = some k) (hk11 : k ≠ 11)
    (hne : w ≠ []) (hh : ∀ c, w.head? = some c → ¬ Digit c) (hw : ∀ x ∈ w, NameCh x) (hs : NameEnd s) {a b : Acc} {r : Raw} {s' : Yy.Text}
    (he : eqItem cv k ⟨.word w, false, s⟩ a = .ok (.good b, ⟨r, false, s'⟩)) (n : Nat) (typ : Raw) :
    eqItems cv (n + 1) ⟨typ, false, g ++ (w ++ s)⟩ a = eqItems cv n ⟨r, false, s'⟩ b := by
  rw [eqItems, (reads_gap (reads_key hk hne hh hw hs) hg).lxs]
  simp only [Res.bind]
  rw [if_neg hk11, he]

theorem head_take {w : Yy.Text} (h : ∀ c ∈ w.take 1, ¬ Digit c) : ∀ c, w.head? = some c → ¬ Digit c := by
  intro c hc
  cases w with
  | nil => cases hc
  | cons a r => cases hc; exact h _ (by simp)

theorem method_key {m : Nat} {w : String} (h : methods[m]? = some w) : ∃ k < 22, findWord eqKeys w.toList = some k ∧
    methodKey k = some (m : Int) ∧ k ≠ 9 ∧ k ≠ 4 ∧ k ≠ 0 ∧ k ≠ 1 ∧ k ≠ 2 ∧ k ≠ 11 ∧ w.toList ≠ [] ∧
    (∀ c ∈ w.toList.take 1, ¬ Digit c) ∧ ∀ x ∈ w.toList, NameCh x := by
  have key : ∀ e ∈ methods.zipIdx, ∃ k < 22, findWord eqKeys e.1.toList = some k ∧
    methodKey k = some (e.2 : Int) ∧ k ≠ 9 ∧ k ≠ 4 ∧ k ≠ 0 ∧ k ≠ 1 ∧ k ≠ 2 ∧ k ≠ 11 ∧ e.1.toList ≠ [] ∧
    (∀ c ∈ e.1.toList.take 1, ¬ Digit c) ∧ ∀ x ∈ e.1.toList, NameCh x := by decide +kernel
  exact key (w, m) (List.mem_zipIdx_iff_getElem?.2 h)

theorem test_key : ∀ e ∈ testPlaces, ∃ k < 22, findWord eqKeys e.1.toList = some k ∧ methodKey k = none ∧ testKey k = some e.2 ∧
    k ≠ 9 ∧ k ≠ 4 ∧ k ≠ 0 ∧ k ≠ 1 ∧ k ≠ 2 ∧ k ≠ 11 ∧ e.1.toList ≠ [] ∧
    (∀ c ∈ e.1.toList.take 1, ¬ Digit c) ∧ ∀ x ∈ e.1.toList, NameCh x := by decide +kernel

theorem readOem_lit {cv : Conv} {g t b u : Yy.Text} (hg : Gap g) (h : Lit t b) (hn : ∀ c ∈ t, c.toNat ≠ 0)
    (hu : toUtf8 cv t = some u) (hne : u ≠ []) (s : Yy.Text) (typ : Raw) :
    readOem cv ⟨typ, false, g ++ '"' :: (b ++ '"' :: s)⟩ = .ok (.good u, ⟨.string t, false, s⟩) := by
  rw [readOem, readStr_lit hg h hn]
  simp only [Res.bind]
  rw [hu]
  simp only
  rw [if_neg (by simpa using hne)]

theorem eqItems_laid {cv : Conv} {is : List Item} {x s' : Yy.Text} (h : Items na ieee is x s') (hok : ∀ i ∈ is, ItemOk cv i) :
    ∀ (a : Acc) (typ : Raw) (n : Nat), is.length ≤ n → ∃ r m, n = m + is.length ∧
      eqItems cv n ⟨typ, false, x⟩ a = eqItems cv m ⟨r, false, s'⟩ (is.foldl (applyItem cv) a) := by
  induction h with
  | nil => intro a typ n _; exact ⟨typ, n, rfl, rfl⟩
  | @method g w m is s s' hg hm hs _ ih =>
    intro a typ n hn
    obtain ⟨k, _, k1, k2, k3, k4, k5, k6, k7, k8, k9, k10, k11⟩ := method_key hm
    cases n with
    | zero => simp at hn
    | succ n =>
      obtain ⟨r, m', e1, e2⟩ := ih (fun i hi => hok i (by simp [hi])) { a with method := m } (.word w.toList) n (by simpa using hn)
      refine ⟨r, m', by rw [List.length_cons]; omega, ?_⟩
      rw [eqItems_step (r := .word w.toList) (s' := s) (b := { a with method := m }) hg k1 k8 k9 (head_take k10) k11 hs, e2]
      · rfl
      · rw [eqItem, if_neg k3, if_neg k4, if_neg k5, if_neg k6, if_neg k7, k2]
  | @date g g' d is s s' hg hg' hne' hd hne hl hs _ ih =>
    intro a typ n hn
    cases n with
    | zero => simp at hn
    | succ n =>
      obtain ⟨r, m', e1, e2⟩ := ih (fun i hi => hok i (by simp [hi])) { a with date := dec d } (.long d) n (by simpa using hn)
      refine ⟨r, m', by rw [List.length_cons]; omega, ?_⟩
      rw [eqItems_step (k := 9) (w := "DATE".toList) (r := .long d) (s' := s) (b := { a with date := dec d }) hg (by decide +kernel)
        (by decide) (by decide) (by intro c h; cases h; decide) (by decide) (gap_ends hg' hne' _).1, e2]
      · rfl
      · rw [eqItem, if_pos rfl, readLong_digits hg' hd hne hl hs]
        rfl
  | @before g g' g'' d is s s' hg hg' hne' hg'' hd hne hl hs _ ih =>
    intro a typ n hn
    cases n with
    | zero => simp at hn
    | succ n =>
      obtain ⟨r, m', e1, e2⟩ := ih (fun i hi => hok i (by simp [hi])) { a with date := -(dec d : Int) } (.long d) n (by simpa using hn)
      refine ⟨r, m', by rw [List.length_cons]; omega, ?_⟩
      rw [eqItems_step (k := 9) (w := "DATE".toList) (r := .long d) (s' := s) (b := { a with date := -(dec d : Int) }) hg (by decide +kernel)
        (by decide) (by decide) (by intro c h; cases h; decide) (by decide) (gap_ends hg' hne' _).1, e2]
      · rfl
      · rw [eqItem, if_pos rfl, readLong, (reads_gap (reads_dash _) hg').lxs]
        simp only [Res.bind]
        rw [if_pos trivial]
        obtain ⟨k, hk⟩ : ∃ k, (g' ++ '-' :: (g'' ++ (d ++ s))).length + 1 = k + 1 := ⟨_, rfl⟩
        simp only [hk]
        rw [readLong_digits hg'' hd hne hl hs]
        rfl
  | @sample g g1 g2 smp is s s' hg hg1 hn1 hg2 hn2 hs _ ih =>
    intro a typ n hn
    cases n with
    | zero => simp at hn
    | succ n =>
      obtain ⟨p1, p2, p3⟩ := hok (.sample smp) (by simp)
      obtain ⟨r0, hr⟩ := readSmpl_ok (tbl := eqKeys) p1 p2 p3 hg1 hg2 hn2 hs (.word "SAMPLE".toList)
      obtain ⟨r, m', e1, e2⟩ := ih (fun i hi => hok i (by simp [hi])) { a with smpl := some smp } r0 n (by simpa using hn)
      refine ⟨r, m', by rw [List.length_cons]; omega, ?_⟩
      rw [eqItems_step (k := 4) (w := "SAMPLE".toList) (r := r0) (s' := s) (b := { a with smpl := some smp }) hg (by decide +kernel)
        (by decide) (by decide) (by intro c h; cases h; decide) (by decide) (gap_ends hg1 hn1 _).1, e2]
      · rfl
      · rw [eqItem, if_neg (by decide), if_pos rfl, hr]
  | @block g g' t b is s s' hg hg' hl _ ih =>
    intro a typ n hn
    cases n with
    | zero => simp at hn
    | succ n =>
      obtain ⟨p1, p2⟩ := hok (.block t) (by simp)
      obtain ⟨r, m', e1, e2⟩ := ih (fun i hi => hok i (by simp [hi])) { a with block := t } (.string t) n (by simpa using hn)
      refine ⟨r, m', by rw [List.length_cons]; omega, ?_⟩
      rw [eqItems_step (k := 0) (w := "BLOCK".toList) (r := .string t) (s' := s) (b := { a with block := t }) hg (by decide +kernel)
        (by decide) (by decide) (by intro c h; cases h; decide) (by decide) (gap_quote hg' _), e2]
      · rfl
      · rw [eqItem, if_neg (by decide), if_neg (by decide), if_pos rfl, readStr_lit hg' hl p2]
        simp only [Res.bind]
        rw [if_neg (by simpa using p1)]
  | @comment g g' t b is s s' hg hg' hl _ ih =>
    intro a typ n hn
    cases n with
    | zero => simp at hn
    | succ n =>
      obtain ⟨⟨u, p1, p2⟩, p3⟩ := hok (.comment t) (by simp)
      obtain ⟨r, m', e1, e2⟩ := ih (fun i hi => hok i (by simp [hi])) { a with comment := u } (.string t) n (by simpa using hn)
      refine ⟨r, m', by rw [List.length_cons]; omega, ?_⟩
      rw [eqItems_step (k := 1) (w := "COMMENT".toList) (r := .string t) (s' := s) (b := { a with comment := u }) hg (by decide +kernel)
        (by decide) (by decide) (by intro c h; cases h; decide) (by decide) (gap_quote hg' _), e2, List.foldl_cons, applyItem, p1]
      · rfl
      · rw [eqItem, if_neg (by decide), if_neg (by decide), if_neg (by decide), if_pos rfl, readOem_lit hg' hl p3 p1 p2]
        rfl
  | @instruments g g' t b is s s' hg hg' hl _ ih =>
    intro a typ n hn
    cases n with
    | zero => simp at hn
    | succ n =>
      obtain ⟨⟨u, p1, p2⟩, p3⟩ := hok (.instruments t) (by simp)
      obtain ⟨r, m', e1, e2⟩ := ih (fun i hi => hok i (by simp [hi])) { a with instruments := u } (.string t) n (by simpa using hn)
      refine ⟨r, m', by rw [List.length_cons]; omega, ?_⟩
      rw [eqItems_step (k := 2) (w := "INSTRUMENTS".toList) (r := .string t) (s' := s) (b := { a with instruments := u }) hg
        (by decide +kernel) (by decide) (by decide) (by intro c h; cases h; decide) (by decide) (gap_quote hg' _), e2,
        List.foldl_cons, applyItem, p1]
      · rfl
      · rw [eqItem, if_neg (by decide), if_neg (by decide), if_neg (by decide), if_neg (by decide), if_pos rfl,
          readOem_lit hg' hl p3 p1 p2]
        rfl
  | @test g w i v is s s1 s' hg hm hs hv _ ih =>
    intro a typ n hn
    obtain ⟨k, _, k1, k1', k2, k3, k4, k5, k6, k7, k8, k9, k10, k11⟩ := test_key _ hm
    obtain ⟨r0, hr⟩ := real_val hv
    cases n with
    | zero => simp at hn
    | succ n =>
      obtain ⟨r, m', e1, e2⟩ := ih (fun i hi => hok i (by simp [hi])) { a with tests := a.tests.set i (toFloat v) } r0 n
        (by simpa using hn)
      refine ⟨r, m', by rw [List.length_cons]; omega, ?_⟩
      rw [eqItems_step (r := r0) (s' := s1) (b := { a with tests := a.tests.set i (toFloat v) }) hg k1 k8 k9 (head_take k10) k11 hs, e2]
      · rfl
      · rw [eqItem, if_neg k3, if_neg k4, if_neg k5, if_neg k6, if_neg k7, k1']
        simp only
        rw [k2]
        simp only
        rw [hr]
        rfl

theorem items_length {missing : Dbl} {rnd : Rat → Dbl} {is : List Item} {x s' : Yy.Text} (h : Items missing rnd is x s') :
    is.length + s'.length ≤ x.length := by
  induction h with
  | nil => simp
  | @method g w m is s s' _ hm _ _ ih =>
    obtain ⟨k, _, _, _, _, _, _, _, _, _, hne, _, _⟩ := method_key hm
    have := List.length_pos_iff.2 hne
    rw [List.length_append, List.length_append, List.length_cons]
    omega
  | date _ _ _ _ _ _ _ _ ih =>
    simp only [List.length_append, List.length_cons] at ih ⊢
    have : "DATE".toList.length = 4 := by decide
    omega
  | before _ _ _ _ _ _ _ _ _ ih =>
    simp only [List.length_append, List.length_cons] at ih ⊢
    omega
  | sample _ _ _ _ _ _ _ ih =>
    simp only [List.length_append, List.length_cons] at ih ⊢
    have : "SAMPLE".toList.length = 6 := by decide
    omega
  | block _ _ _ _ ih =>
    simp only [List.length_append, List.length_cons] at ih ⊢
    omega
  | comment _ _ _ _ ih =>
    simp only [List.length_append, List.length_cons] at ih ⊢
    omega
  | instruments _ _ _ _ ih =>
    simp only [List.length_append, List.length_cons] at ih ⊢
    omega
  | @test g w i v is s s1 s' _ hm _ hv _ ih =>
    obtain ⟨k, _, _, _, _, _, _, _, _, _, _, hne, _, _⟩ := test_key _ hm
    have := List.length_pos_iff.2 hne
    have hv' : s1.length ≤ s.length := by
      cases hv with
      | na _ _ h => cases h; simp; omega
      | mark _ _ _ h => cases h; simp; omega
      | num _ _ _ _ h => cases h; simp; omega
      | neg _ _ _ _ _ h => cases h; simp; omega
    simp only [List.length_append, List.length_cons]
    simp only at this
    omega

/-! ## Equations -/

/-- The result of the entries. -/
def accOf (cv : Conv) (is : List Item) : Acc := is.foldl (applyItem cv) acc0

/-- The formula that is read. -/
def lecOf (cv : Conv) (t : Yy.Text) : Yy.Text := (toUtf8 cv (wrap 60 t)).getD []

/-- The equation that is read. -/
def eqnOf (cv : Conv) (valid : Yy.Text → Yy.Text → Bool) (d : EDef) : Eqn :=
  let a := accOf cv d.items
  ⟨d.name, if valid d.name (lecOf cv d.formula) then lecOf cv d.formula else [], a.method, a.smpl.getD noSmpl,
    (toOem cv a.comment).getD [], a.block, a.instruments, a.date, a.tests⟩

/-- The definitions that are accepted. -/
structure DefOk (cv : Conv) (d : EDef) : Prop where
  noNul : ∀ c ∈ d.formula, c.toNat ≠ 0
  formula : ∃ u, toUtf8 cv (wrap 60 d.formula) = some u ∧ u ≠ []
  items : ∀ i ∈ d.items, ItemOk cv i
  comment : ∃ c, toOem cv (accOf cv d.items).comment = some c

theorem acc_smpl {cv : Conv} {is : List Item} (h : ∀ i ∈ is, ItemOk cv i) : ∀ s, (accOf cv is).smpl = some s →
    PerOk s.start ∧ PerOk s.stop ∧ Sample.ofPeriods s.start s.stop = .ok s := by
  induction is using List.reverseRecOn with
  | nil => intro s hs; cases hs
  | append_singleton l e ih =>
    intro s hs
    rw [accOf, List.foldl_append, List.foldl_cons, List.foldl_nil] at hs
    have ih := ih fun i hi => h i (by simp [hi])
    have he := h e (by simp)
    cases e with
    | sample p =>
      simp only [applyItem, Option.some.injEq] at hs
      subst hs
      exact he
    | _ => exact ih s hs

theorem perOk_ne {p : Period} (h : PerOk p) : p.toChars.isEmpty = false := by
  obtain ⟨y, st, e, h1, _⟩ := h.text
  rw [e]
  cases hy : natToChars y with
  | nil => rw [hy] at h1; simp at h1
  | cons c r => rfl

theorem makeEq_ok {cv : Conv} {valid : Yy.Text → Yy.Text → Bool} {vs : Option Sample} {w lec c : Yy.Text} {a : Acc}
    (hs : ∀ s, a.smpl = some s → PerOk s.start ∧ PerOk s.stop ∧ Sample.ofPeriods s.start s.stop = .ok s)
    (hc : toOem cv a.comment = some c) :
    makeEq cv valid vs w lec a =
      .ok (.good ⟨w, if valid w lec then lec else [], a.method, a.smpl.getD noSmpl, c, a.block, a.instruments, a.date, a.tests⟩) := by
  rw [makeEq]
  cases h : a.smpl with
  | none =>
    have : setSmpl vs ((Option.map (fun s : Sample => s.start.toChars) none).getD [])
        ((Option.map (fun s : Sample => s.stop.toChars) none).getD []) = .ok noSmpl := by
      rw [setSmpl.eq_def, if_pos (by simp)]
    rw [this]
    simp only
    rw [hc]
    rfl
  | some s =>
    obtain ⟨h1, h2, h3⟩ := hs s h
    have e1 := perOk_ne h1
    have e2 := perOk_ne h2
    have : setSmpl vs ((Option.map (fun s : Sample => s.start.toChars) (some s)).getD [])
        ((Option.map (fun s : Sample => s.stop.toChars) (some s)).getD []) = .ok s := by
      simp only [Option.map_some, Option.getD_some]
      rw [setSmpl.eq_def, if_neg (by simp [e1]), if_neg (by simp [e1, e2]), Sample.ofStrings,
        C02_print_parse _ h1.wf h1.per h1.low h1.high, C02_print_parse _ h2.wf h2.per h2.low h2.high]
      exact h3
    rw [this]
    simp only
    rw [hc]
    rfl

/-- Behind a name. -/
theorem readEq_short {cv : Conv} {valid : Yy.Text → Yy.Text → Bool} {vs : Option Sample} {w g t b : Yy.Text} (hg : Gap g)
    (hl : Lit t b) (hok : DefOk cv ⟨w, t, []⟩) (s : Yy.Text) (typ : Raw) :
    ∃ r, readEq cv valid vs w ⟨typ, false, g ++ '"' :: (b ++ '"' :: s)⟩ = .ok (.good (eqnOf cv valid ⟨w, t, []⟩), ⟨r, false, s⟩) := by
  refine ⟨.string t, ?_⟩
  obtain ⟨u, h1, h2⟩ := hok.formula
  obtain ⟨c, hc⟩ := hok.comment
  have hback : readStr (unread ⟨.string t, false, s⟩) = .ok (t, ⟨.string t, false, s⟩) := by
    rw [readStr, lxs, lx, rd]
    simp only [unread, if_true, Res.bind]
    rw [if_neg (by simp)]
    simp only [classify]
    rw [cstr_self hok.noNul]
  rw [readEq, (reads_gap (reads_string hl s) hg).lxs]
  simp only [Res.bind]
  rw [if_neg (by simp), hback]
  simp only
  rw [h1]
  simp only
  rw [if_neg (by simpa using h2), makeEq_ok (a := acc0) (by intro s hs; cases hs) hc]
  simp only [eqnOf, lecOf, h1, Option.getD_some]
  rw [hc]
  rfl

theorem readEq_full {cv : Conv} {valid : Yy.Text → Yy.Text → Bool} {vs : Option Sample} {w g1 g2 g3 t b : Yy.Text} {is : List Item}
    {s s' : Yy.Text} (hg1 : Gap g1) (hg2 : Gap g2) (hl : Lit t b) (hi : Items na ieee is s (g3 ++ '}' :: s')) (hg3 : Gap g3)
    (hok : DefOk cv ⟨w, t, is⟩) (typ : Raw) :
    ∃ r, readEq cv valid vs w ⟨typ, false, g1 ++ '{' :: (g2 ++ '"' :: (b ++ '"' :: s))⟩ =
      .ok (.good (eqnOf cv valid ⟨w, t, is⟩), ⟨r, false, s'⟩) := by
  refine ⟨.special '}', ?_⟩
  obtain ⟨u, h1, h2⟩ := hok.formula
  obtain ⟨c, hc⟩ := hok.comment
  rw [readEq, (reads_gap (reads_open _) hg1).lxs]
  simp only [Res.bind]
  rw [if_pos trivial, readStr_lit hg2 hl hok.noNul]
  simp only
  rw [h1]
  simp only
  have hlen := items_length hi
  obtain ⟨r, m, e1, e2⟩ := eqItems_laid hi hok.items acc0 (.string t) (s.length + 2) (by omega)
  rw [if_neg (by simpa using h2), e2]
  cases m with
  | zero =>
    simp only [List.length_append, List.length_cons] at hlen
    omega
  | succ m =>
    rw [eqItems, (reads_gap (reads_close _) hg3).lxs]
    simp only [Res.bind]
    rw [if_pos trivial]
    simp only
    rw [← accOf, makeEq_ok (acc_smpl hok.items) hc]
    simp only [eqnOf, lecOf, h1, Option.getD_some]
    rw [hc]
    rfl

/-! ## The loop -/

theorem eqLoop_gap {cv : Conv} {valid : Yy.Text → Yy.Text → Bool} {vs : Option Sample} {g : Yy.Text} (hg : Gap g) (x : Yy.Text)
    (db : SMap Eqn) : ∀ (typ : Raw) (n : Nat), (g ++ x).length < n → ∃ typ' m, x.length < m ∧
      eqLoop cv valid vs n ⟨typ, false, g ++ x⟩ db = eqLoop cv valid vs m ⟨typ', false, x⟩ db := by
  induction hg with
  | nil => intro typ n hn; exact ⟨typ, n, hn, rfl⟩
  | @white c g hw _ ih =>
    intro typ n hn
    cases n with
    | zero => omega
    | succ n =>
      obtain ⟨t', m, h1, h2⟩ := ih typ (n + 1) (by simp at hn ⊢; omega)
      refine ⟨t', m, h1, ?_⟩
      rw [← h2, List.cons_append, eqLoop, eqLoop, rd_space (Lec.isSpace_of_white hw)]
  | @block b g hb _ ih =>
    intro typ n hn
    cases n with
    | zero => omega
    | succ n =>
      have e : '/' :: '*' :: (b ++ '*' :: '/' :: g) ++ x = '/' :: '*' :: (b ++ '*' :: '/' :: (g ++ x)) := by simp
      rw [e] at hn ⊢
      obtain ⟨t', m, h1, h2⟩ := ih .comment n (by simp at hn ⊢; omega)
      refine ⟨t', m, h1, ?_⟩
      rw [← h2, eqLoop, rd_of (Lec.read_block _ |>.trans (Lec.comment_body hb _)) (by simp) (by simp)]
      rfl
  | @line b g hb _ ih =>
    intro typ n hn
    cases n with
    | zero => omega
    | succ n =>
      have e : '/' :: '/' :: (b ++ '\n' :: g) ++ x = '/' :: '/' :: (b ++ '\n' :: (g ++ x)) := by simp
      rw [e] at hn ⊢
      obtain ⟨t', m, h1, h2⟩ := ih .comment n (by simp at hn ⊢; omega)
      refine ⟨t', m, h1, ?_⟩
      rw [← h2, eqLoop, rd_of (by rw [Lec.read_line, Lec.skipToEol_body hb]) (by simp) (by simp)]
      rfl

theorem key_eq {w : Yy.Text} (h : ObjName w) :
    toKey .equations (w.take 20) = w.map toUpperC ∧ checkName .equations (w.map toUpperC) = true := by
  obtain ⟨h1, h2⟩ := key_name (ty := .identities) (.inr (.inr rfl)) h
  exact ⟨h1, h2⟩

/-- The equation that is stored. -/
def storedOf (cv : Conv) (valid : Yy.Text → Yy.Text → Bool) (d : EDef) : Eqn :=
  { eqnOf cv valid d with block := if (accOf cv d.items).block.isEmpty then d.name else (accOf cv d.items).block }

/-- The database after a list of equations. -/
def putEqs (cv : Conv) (valid : Yy.Text → Yy.Text → Bool) (defs : List EDef) (db : SMap Eqn) : SMap Eqn :=
  defs.foldl (fun db d => SMap.insert (d.name.map toUpperC) (storedOf cv valid d) db) db

theorem eqLoop_name {cv : Conv} {valid : Yy.Text → Yy.Text → Bool} {vs : Option Sample} {d : EDef} {s s' : Yy.Text} {r : Raw}
    (hw : ObjName d.name) (hs : NameEnd s)
    (hr : ∀ typ, ∃ r, readEq cv valid vs d.name ⟨typ, false, s⟩ = .ok (.good (eqnOf cv valid d), ⟨r, false, s'⟩)) (n : Nat) (db : SMap Eqn) :
    ∃ r', eqLoop cv valid vs (n + 1) ⟨r, false, d.name ++ s⟩ db =
      eqLoop cv valid vs n ⟨r', false, s'⟩ (SMap.insert (d.name.map toUpperC) (storedOf cv valid d) db) := by
  obtain ⟨r', e⟩ := hr (.word d.name)
  refine ⟨r', ?_⟩
  have hrd : Yy.read (d.name ++ s) = (.word d.name, s) := by
    have hne := hw.ne
    have hh := hw.head
    have ha := hw.all
    cases hn : d.name with
    | nil => exact absurd hn hne
    | cons c w =>
      rw [hn] at hh ha
      exact Lec.read_word (hh c rfl) ha hs
  obtain ⟨k1, k2⟩ := key_eq hw
  rw [eqLoop, rd_of hrd (by simp) (by simp)]
  simp only [Res.bind]
  rw [List.take_of_length_le hw.short] at k1 ⊢
  rw [e]
  simp only
  rw [k1, if_pos k2]
  rfl

theorem elaid_length {missing : Dbl} {rnd : Rat → Dbl} {defs : List EDef} {s : Yy.Text} (h : ELaid missing rnd defs s) :
    defs.length ≤ s.length := by
  induction h with
  | nil => simp
  | short _ _ _ _ _ ih => simp; omega
  | full _ _ _ _ _ hi _ _ ih =>
    have := items_length hi
    simp at this ⊢
    omega

theorem eqLoop_laid {cv : Conv} {valid : Yy.Text → Yy.Text → Bool} {vs : Option Sample} {defs : List EDef} {x : Yy.Text}
    (h : ELaid na ieee defs x) (hok : ∀ d ∈ defs, DefOk cv d) : ∀ (typ : Raw) (n : Nat) (_ : x.length < n) (db : SMap Eqn),
      eqLoop cv valid vs n ⟨typ, false, x⟩ db = .ok (.good (), putEqs cv valid defs db) := by
  induction h with
  | @nil g hg =>
    intro typ n hn db
    obtain ⟨t', m, h1, h2⟩ := eqLoop_gap (cv := cv) (valid := valid) (vs := vs) hg [] db typ n (by simpa using hn)
    rw [List.append_nil] at h2
    rw [h2]
    cases m with
    | zero => simp at h1
    | succ m => rw [eqLoop, rd_of (r := .eof) (s := []) rfl (by simp) (by simp)]; rfl
  | @short g w g' t b r s hg hw hg' hl _ ih =>
    intro typ n hn db
    obtain ⟨t', m, h1, h2⟩ := eqLoop_gap (cv := cv) (valid := valid) (vs := vs) hg _ db typ n hn
    rw [h2]
    cases m with
    | zero => omega
    | succ m =>
      obtain ⟨r', e⟩ := eqLoop_name (cv := cv) (valid := valid) (vs := vs) (r := t') (d := ⟨w, t, []⟩) hw (gap_quote hg' (b ++ '"' :: s))
        (fun typ => readEq_short hg' hl (hok ⟨w, t, []⟩ (by simp)) s typ) m db
      rw [e, ih (fun d hd => hok d (by simp [hd])) r' m (by simp at h1; omega)]
      rfl
  | @full g w g1 g2 t b is g3 r s s' hg hw hg1 hg2 hl hi hg3 _ ih =>
    intro typ n hn db
    obtain ⟨t', m, h1, h2⟩ := eqLoop_gap (cv := cv) (valid := valid) (vs := vs) hg _ db typ n hn
    rw [h2]
    have hlen := items_length hi
    have hend : NameEnd (g1 ++ '{' :: (g2 ++ '"' :: (b ++ '"' :: s))) := by
      by_cases h : g1 = []
      · subst h
        intro c hc
        cases hc
        decide
      · exact (gap_ends hg1 h _).1
    cases m with
    | zero => omega
    | succ m =>
      obtain ⟨r', e⟩ := eqLoop_name (cv := cv) (valid := valid) (vs := vs) (r := t') (d := ⟨w, t, is⟩) hw hend
        (fun typ => readEq_full hg1 hg2 hl hi hg3 (hok ⟨w, t, is⟩ (by simp)) typ) m db
      rw [e, ih (fun d hd => hok d (by simp [hd])) r' m (by simp at h1 hlen; omega)]
      rfl

theorem loadEqs_laid {cv : Conv} {valid : Yy.Text → Yy.Text → Bool} {vs : Option Sample} {defs : List EDef} {t : Yy.Text}
    (h : ELaid na ieee defs (expand 0 t)) (hok : ∀ d ∈ defs, DefOk cv d) :
    loadEqs cv valid vs t = .ok (.good (), putEqs cv valid defs []) := by
  rw [loadEqs, eqLoop_laid h hok _ _ (by omega)]

/-! ## Tabs -/

theorem key_plain {w : Yy.Text} (h : ∀ x ∈ w, NameCh x) : ∀ c ∈ w, Lec.PlainCh c := fun c hc => Lec.nameCh_plain (h c hc)

/-- The periods of the samples can be written. -/
def SmplOk (i : Item) : Prop :=
  match i with
  | .sample s => PerOk s.start ∧ PerOk s.stop
  | _ => True

theorem gap_ne {g g' : Yy.Text} {col col' : Nat} (h : g ≠ []) (hc : Lec.Clean g)
    (e : ∀ x, expand col (g ++ x) = g' ++ expand col' x) : g' ≠ [] := by
  have := e []
  rw [List.append_nil, expand, List.append_nil] at this
  rw [← this]
  exact expand_ne h hc col

/-- A string behind a gap. -/
theorem lit_expand {g b s : Yy.Text} {t : Yy.Text} (hg : Gap g) (hl : Lit t b) (hc : Lec.Clean (g ++ '"' :: (b ++ '"' :: s))) (col : Nat) :
    ∃ g' col', Gap g' ∧ expand col (g ++ '"' :: (b ++ '"' :: s)) = g' ++ '"' :: (b ++ '"' :: expand col' s) := by
  obtain ⟨g1, c1, h1, e1⟩ := Lec.expand_gap hg hc.left col
  obtain ⟨c2, e2⟩ := Lec.expand_plain (c := '"') (by decide) c1
  have hc2 := hc.right.tail
  obtain ⟨c3, e3⟩ := Lec.expand_plains (t := b) (fun c hb => Lec.plain_of (hc2.left c hb) (lit_tab hl c hb)) c2
  obtain ⟨c4, e4⟩ := Lec.expand_plain (c := '"') (by decide) c3
  exact ⟨g1, c4, h1, by rw [e1, e2, e3, e4]⟩

theorem items_expand {missing : Dbl} {rnd : Rat → Dbl} {is : List Item} {s s' : Yy.Text} (h : Items missing rnd is s s')
    (hp : ∀ i ∈ is, SmplOk i) (hc : Lec.Clean s) (col : Nat) :
    Lec.Clean s' ∧ ∃ col', Items missing rnd is (expand col s) (expand col' s') := by
  induction h generalizing col with
  | nil => exact ⟨hc, col, .nil⟩
  | @method g w m is s s' hg hm he _ ih =>
    obtain ⟨k, _, _, _, _, _, _, _, _, _, _, _, hw⟩ := method_key hm
    obtain ⟨g', c1, h1, e1⟩ := Lec.expand_gap hg hc.left col
    obtain ⟨c2, e2⟩ := Lec.expand_plains (key_plain hw) c1
    have hs : Lec.Clean s := hc.right.right
    obtain ⟨h3, c3, h4⟩ := ih (fun i hi => hp i (by simp [hi])) hs c2
    refine ⟨h3, c3, ?_⟩
    rw [e1, e2]
    exact .method h1 hm (Lec.nameEnd_expand he hs c2) h4
  | @date g g0 d is s s' hg hg0 hne hd hdn hl he _ ih =>
    obtain ⟨g', c1, h1, e1⟩ := Lec.expand_gap hg hc.left col
    obtain ⟨c2, e2⟩ := Lec.expand_plains (t := "DATE".toList) (by decide) c1
    have hc2 := hc.right.right
    obtain ⟨g2, c3, h3, e3⟩ := Lec.expand_gap hg0 hc2.left c2
    obtain ⟨c4, e4⟩ := Lec.expand_plains (t := d) (fun c hc => Lec.nameCh_plain (Lec.digit_nameCh (hd c hc))) c3
    have hs : Lec.Clean s := hc2.right.right
    obtain ⟨h5, c5, h6⟩ := ih (fun i hi => hp i (by simp [hi])) hs c4
    refine ⟨h5, c5, ?_⟩
    have hne' := gap_ne hne hc2.left e3
    rw [e1, e2, e3, e4]
    exact .date h1 h3 hne' hd hdn hl (Lec.numEnd_expand he hs c4) h6
  | @before g g0 g00 d is s s' hg hg0 hne hg00 hd hdn hl he _ ih =>
    obtain ⟨g', c1, h1, e1⟩ := Lec.expand_gap hg hc.left col
    obtain ⟨c2, e2⟩ := Lec.expand_plains (t := "DATE".toList) (by decide) c1
    have hc2 := hc.right.right
    obtain ⟨g2, c3, h3, e3⟩ := Lec.expand_gap hg0 hc2.left c2
    obtain ⟨c4, e4⟩ := Lec.expand_plain (c := '-') (by decide) c3
    have hc3 := hc2.right.tail
    obtain ⟨g3, c5, h5, e5⟩ := Lec.expand_gap hg00 hc3.left c4
    obtain ⟨c6, e6⟩ := Lec.expand_plains (t := d) (fun c hc => Lec.nameCh_plain (Lec.digit_nameCh (hd c hc))) c5
    have hs : Lec.Clean s := hc3.right.right
    obtain ⟨h7, c7, h8⟩ := ih (fun i hi => hp i (by simp [hi])) hs c6
    refine ⟨h7, c7, ?_⟩
    have hne' := gap_ne hne hc2.left e3
    rw [e1, e2, e3, e4, e5, e6]
    exact .before h1 h3 hne' h5 hd hdn hl (Lec.numEnd_expand he hs c6) h8
  | @sample g g0 g00 smp is s s' hg hg0 hne hg00 hne0 he _ ih =>
    obtain ⟨p1, p2⟩ := hp (.sample smp) (by simp)
    obtain ⟨g', c1, h1, e1⟩ := Lec.expand_gap hg hc.left col
    obtain ⟨c2, e2⟩ := Lec.expand_plains (t := "SAMPLE".toList) (by decide) c1
    have hc2 := hc.right.right
    obtain ⟨g2, c3, h3, e3⟩ := Lec.expand_gap hg0 hc2.left c2
    obtain ⟨c4, e4⟩ := Lec.expand_plains p1.plain c3
    have hc3 := hc2.right.right
    obtain ⟨g3, c5, h5, e5⟩ := Lec.expand_gap hg00 hc3.left c4
    obtain ⟨c6, e6⟩ := Lec.expand_plains p2.plain c5
    have hs : Lec.Clean s := hc3.right.right
    obtain ⟨h7, c7, h8⟩ := ih (fun i hi => hp i (by simp [hi])) hs c6
    refine ⟨h7, c7, ?_⟩
    have hne' := gap_ne hne hc2.left e3
    have hne0' := gap_ne hne0 hc3.left e5
    rw [e1, e2, e3, e4, e5, e6]
    exact .sample h1 h3 hne' h5 hne0' (Lec.numEnd_expand he hs c6) h8
  | @block g g0 t b is s s' hg hg0 hl _ ih =>
    obtain ⟨g', c1, h1, e1⟩ := Lec.expand_gap hg hc.left col
    obtain ⟨c2, e2⟩ := Lec.expand_plains (t := "BLOCK".toList) (by decide) c1
    have hc2 := hc.right.right
    obtain ⟨g2, c3, h3, e3⟩ := lit_expand hg0 hl hc2 c2
    obtain ⟨h5, c5, h6⟩ := ih (fun i hi => hp i (by simp [hi])) hc2.right.tail.right.tail c3
    refine ⟨h5, c5, ?_⟩
    rw [e1, e2, e3]
    exact .block h1 h3 hl h6
  | @comment g g0 t b is s s' hg hg0 hl _ ih =>
    obtain ⟨g', c1, h1, e1⟩ := Lec.expand_gap hg hc.left col
    obtain ⟨c2, e2⟩ := Lec.expand_plains (t := "COMMENT".toList) (by decide) c1
    have hc2 := hc.right.right
    obtain ⟨g2, c3, h3, e3⟩ := lit_expand hg0 hl hc2 c2
    obtain ⟨h5, c5, h6⟩ := ih (fun i hi => hp i (by simp [hi])) hc2.right.tail.right.tail c3
    refine ⟨h5, c5, ?_⟩
    rw [e1, e2, e3]
    exact .comment h1 h3 hl h6
  | @instruments g g0 t b is s s' hg hg0 hl _ ih =>
    obtain ⟨g', c1, h1, e1⟩ := Lec.expand_gap hg hc.left col
    obtain ⟨c2, e2⟩ := Lec.expand_plains (t := "INSTRUMENTS".toList) (by decide) c1
    have hc2 := hc.right.right
    obtain ⟨g2, c3, h3, e3⟩ := lit_expand hg0 hl hc2 c2
    obtain ⟨h5, c5, h6⟩ := ih (fun i hi => hp i (by simp [hi])) hc2.right.tail.right.tail c3
    refine ⟨h5, c5, ?_⟩
    rw [e1, e2, e3]
    exact .instruments h1 h3 hl h6
  | @test g w i v is s s1 s' hg hm he hv _ ih =>
    obtain ⟨k, _, _, _, _, _, _, _, _, _, _, _, _, hw⟩ := test_key _ hm
    obtain ⟨g', c1, h1, e1⟩ := Lec.expand_gap hg hc.left col
    obtain ⟨c2, e2⟩ := Lec.expand_plains (key_plain hw) c1
    have hs : Lec.Clean s := hc.right.right
    obtain ⟨h3, c3, h4⟩ := vals_expand hv hs c2
    obtain ⟨h5, c5, h6⟩ := ih (fun i hi => hp i (by simp [hi])) h3 c3
    refine ⟨h5, c5, ?_⟩
    rw [e1, e2]
    exact .test h1 hm (Lec.nameEnd_expand he hs c2) h4 h6

theorem elaid_expand {missing : Dbl} {rnd : Rat → Dbl} {defs : List EDef} {s : Yy.Text} (h : ELaid missing rnd defs s)
    (hp : ∀ d ∈ defs, ∀ i ∈ d.items, SmplOk i) (hc : Lec.Clean s) (col : Nat) : ELaid missing rnd defs (expand col s) := by
  induction h generalizing col with
  | nil hg =>
    obtain ⟨g', c1, h1, e1⟩ := Lec.expand_gap hg hc col
    have := e1 []
    rw [List.append_nil] at this
    rw [this, expand, List.append_nil]
    exact .nil h1
  | @short g w g0 t b r s hg hw hg0 hl _ ih =>
    obtain ⟨g', c1, h1, e1⟩ := Lec.expand_gap hg hc.left col
    obtain ⟨c2, e2⟩ := Lec.expand_plains (fun c hc => Lec.nameCh_plain (hw.all c hc)) c1
    have hc1 := hc.right.right
    obtain ⟨g2, c3, h3, e3⟩ := lit_expand hg0 hl hc1 c2
    rw [e1, e2, e3]
    exact .short h1 hw h3 hl (ih (fun d hd => hp d (by simp [hd])) hc1.right.tail.right.tail c3)
  | @full g w g0 g00 t b is g3 r s s' hg hw hg0 hg00 hl hi hg3 _ ih =>
    obtain ⟨g', c1, h1, e1⟩ := Lec.expand_gap hg hc.left col
    obtain ⟨c2, e2⟩ := Lec.expand_plains (fun c hc => Lec.nameCh_plain (hw.all c hc)) c1
    have hc1 := hc.right.right
    obtain ⟨g1, c3, h3, e3⟩ := Lec.expand_gap hg0 hc1.left c2
    obtain ⟨c4, e4⟩ := Lec.expand_plain (c := '{') (by decide) c3
    have hc2 := hc1.right.tail
    obtain ⟨g2, c5, h5, e5⟩ := lit_expand hg00 hl hc2 c4
    obtain ⟨h6, c6, h7⟩ := items_expand hi (hp ⟨w, t, is⟩ (by simp)) hc2.right.tail.right.tail c5
    obtain ⟨g4, c7, h8, e8⟩ := Lec.expand_gap hg3 h6.left c6
    obtain ⟨c8, e9⟩ := Lec.expand_plain (c := '}') (by decide) c7
    rw [e1, e2, e3, e4, e5]
    rw [e8, e9] at h7
    exact .full h1 hw h3 h5 hl h7 h8 (ih (fun d hd => hp d (by simp [hd])) h6.right.tail c8)

theorem elaid_names {missing : Dbl} {rnd : Rat → Dbl} {defs : List EDef} {s : Yy.Text} (h : ELaid missing rnd defs s) :
    ∀ e ∈ defs, ObjName e.name := by
  induction h with
  | nil => intro e he; cases he
  | short _ hw _ _ _ ih =>
    intro e he
    rcases List.mem_cons.1 he with rfl | he
    · exact hw
    · exact ih e he
  | full _ hw _ _ _ _ _ _ ih =>
    intro e he
    rcases List.mem_cons.1 he with rfl | he
    · exact hw
    · exact ih e he

/-! ## Characters -/

/-- The strings of an entry hold no zero character. -/
def ItemClean (i : Item) : Prop :=
  match i with
  | .block t => ∀ c ∈ t, c.toNat ≠ 0
  | .comment t => ∀ c ∈ t, c.toNat ≠ 0
  | .instruments t => ∀ c ∈ t, c.toNat ≠ 0
  | _ => True

theorem lit_clean {g b s : Yy.Text} {t : Yy.Text} (hl : Lit t b) (hc : Lec.Clean (g ++ '"' :: (b ++ '"' :: s))) : ∀ c ∈ t, c.toNat ≠ 0 :=
  lit_noNul hl fun c hb => (hc.right.tail.left c hb).1

theorem items_clean {missing : Dbl} {rnd : Rat → Dbl} {is : List Item} {s s' : Yy.Text} (h : Items missing rnd is s s')
    (hc : Lec.Clean s) : Lec.Clean s' ∧ ∀ i ∈ is, ItemClean i := by
  induction h with
  | nil => exact ⟨hc, by simp⟩
  | method _ _ _ _ ih =>
    obtain ⟨h1, h2⟩ := ih hc.right.right
    exact ⟨h1, List.forall_mem_cons.2 ⟨trivial, h2⟩⟩
  | date _ _ _ _ _ _ _ _ ih =>
    obtain ⟨h1, h2⟩ := ih hc.right.right.right.right
    exact ⟨h1, List.forall_mem_cons.2 ⟨trivial, h2⟩⟩
  | before _ _ _ _ _ _ _ _ _ ih =>
    obtain ⟨h1, h2⟩ := ih hc.right.right.right.tail.right.right
    exact ⟨h1, List.forall_mem_cons.2 ⟨trivial, h2⟩⟩
  | sample _ _ _ _ _ _ _ ih =>
    obtain ⟨h1, h2⟩ := ih hc.right.right.right.right.right.right
    exact ⟨h1, List.forall_mem_cons.2 ⟨trivial, h2⟩⟩
  | block _ _ hl _ ih =>
    obtain ⟨h1, h2⟩ := ih hc.right.right.right.tail.right.tail
    exact ⟨h1, List.forall_mem_cons.2 ⟨lit_clean hl hc.right.right, h2⟩⟩
  | comment _ _ hl _ ih =>
    obtain ⟨h1, h2⟩ := ih hc.right.right.right.tail.right.tail
    exact ⟨h1, List.forall_mem_cons.2 ⟨lit_clean hl hc.right.right, h2⟩⟩
  | instruments _ _ hl _ ih =>
    obtain ⟨h1, h2⟩ := ih hc.right.right.right.tail.right.tail
    exact ⟨h1, List.forall_mem_cons.2 ⟨lit_clean hl hc.right.right, h2⟩⟩
  | test _ _ _ hv _ ih =>
    obtain ⟨h1, h2⟩ := ih (vals_expand hv hc.right.right 0).1
    exact ⟨h1, List.forall_mem_cons.2 ⟨trivial, h2⟩⟩

theorem elaid_clean {missing : Dbl} {rnd : Rat → Dbl} {defs : List EDef} {s : Yy.Text} (h : ELaid missing rnd defs s)
    (hc : Lec.Clean s) : ∀ d ∈ defs, (∀ c ∈ d.formula, c.toNat ≠ 0) ∧ ∀ i ∈ d.items, ItemClean i := by
  induction h with
  | nil => simp
  | short _ _ _ hl _ ih =>
    have hc1 := hc.right.right
    exact List.forall_mem_cons.2 ⟨⟨lit_clean hl hc1, by simp⟩, ih hc1.right.tail.right.tail⟩
  | full _ _ _ _ hl hi _ _ ih =>
    have hc1 := hc.right.right.right.tail
    obtain ⟨h1, h2⟩ := items_clean hi hc1.right.tail.right.tail
    exact List.forall_mem_cons.2 ⟨⟨lit_clean hl hc1, h2⟩, ih h1.right.tail⟩

/-! ## Results -/

theorem last_append {α : Type} (f : Item → Option α) (l : List Item) (e : Item) :
    lastOf f (l ++ [e]) = (f e).or (lastOf f l) := by
  rw [lastOf, List.filterMap_append]
  cases h : f e with
  | none => simp [h, lastOf]
  | some a => simp [h]

theorem acc_fields {cv : Conv} (is : List Item) :
    (accOf cv is).method = ((lastOf Item.method? is).getD 0 : Nat) ∧ (accOf cv is).date = (lastOf Item.date? is).getD 0 ∧
    (accOf cv is).smpl = lastOf Item.sample? is ∧ (accOf cv is).block = (lastOf Item.block? is).getD [] ∧
    (accOf cv is).comment = ((lastOf Item.comment? is).bind (toUtf8 cv)).getD [] ∧
    (accOf cv is).instruments = ((lastOf Item.instruments? is).bind (toUtf8 cv)).getD [] := by
  induction is using List.reverseRecOn with
  | nil => exact ⟨rfl, rfl, rfl, rfl, rfl, rfl⟩
  | append_singleton l e ih =>
    obtain ⟨h1, h2, h3, h4, h5, h6⟩ := ih
    have : accOf cv (l ++ [e]) = applyItem cv (accOf cv l) e := by rw [accOf, List.foldl_append]; rfl
    rw [this]
    simp only [last_append]
    cases e <;> simp [applyItem, Item.method?, Item.date?, Item.sample?, Item.block?, Item.comment?, Item.instruments?, h1, h2, h3, h4,
      h5, h6]

theorem acc_tests {cv : Conv} (is : List Item) : (accOf cv is).tests.length = 20 ∧
    ∀ i < 20, (accOf cv is).tests[i]? = some (((lastOf (Item.test? i) is).map toFloat).getD (.num 0)) := by
  induction is using List.reverseRecOn with
  | nil =>
    refine ⟨rfl, fun i hi => ?_⟩
    have : ∀ i < 20, acc0.tests[i]? = some (.num 0) := by decide +kernel
    exact this i hi
  | append_singleton l e ih =>
    obtain ⟨h1, h2⟩ := ih
    have : accOf cv (l ++ [e]) = applyItem cv (accOf cv l) e := by rw [accOf, List.foldl_append]; rfl
    rw [this]
    simp only [last_append]
    cases e with
    | test j v =>
      refine ⟨by simpa [applyItem] using h1, fun i hi => ?_⟩
      simp only [applyItem, Item.test?]
      rw [List.getElem?_set]
      by_cases hj : j = i
      · rw [if_pos hj, if_pos (by omega), if_pos hj]
        rfl
      · rw [if_neg hj, if_neg hj, h2 i hi]
        rfl
    | _ => exact ⟨h1, h2⟩

end Asc
end Iode
