import Verif.Lemmas.GSample

/-!
# C43: a generalised sample expands to the product of its parts
-/
namespace Iode.GSample

/-- Any well written sample, with any nesting of groups and suffixes in any order, compiles to the columns it stands for.  Missing:
the lexer; shifts to the left of groups of several columns (see the counterexample) and shifts to the end of the year over two
periodicities. -/
theorem C43_compiles_partial (ps : Parts) (h : ps.Ok) : compile (print ps) = .ok (meaning ps) := by
  unfold compile
  have := readCols_parts ps [] h trivial ((print ps).length + 1) [] (by omega)
  rw [List.append_nil] at this
  have e : St.start = ⟨[], none, (0, 1), none⟩ := rfl
  rw [e, this]
  rfl

/-- `((2000;2000Q3/EOS>1):2*-3[2])` with suffixes, nested in a group: `(2000;(1999Q3/1998Q3):2*-3[2;1-2])>1:3`. -/
def exParts : Parts :=
  .one (.group (.cons (.col ⟨⟨.year 2000, []⟩, none⟩) []
    (.one (.group (.one (.col ⟨⟨.sub 99 'q' 3, []⟩, some (.grt, ⟨.sub 1998 'Q' 3, [(true, 0), (false, 1)]⟩)⟩) []))
      [.rep 2 (some (-3)), .files [(2, none), (1, some (.diff, 2))]])))
    [.shift (false, 1), .rep 3 none]

theorem exParts_ok : exParts.Ok := by
  simp only [exParts, Parts.Ok, Item.Ok, Attached]
  refine ⟨⟨⟨?_, ?_, ?_, ?_⟩, ⟨?_, ?_, ?_, ?_⟩, ?_, ?_, ?_⟩, ?_, ?_, ?_⟩
  all_goals try trivial
  · exact ⟨by simp [PerT.Ok, litPer, Good, inYear], fun o q e => by cases e⟩
  · exact ⟨fun s hs => by simp at hs, by simp, by simp⟩
  · intro s hs; simp [shiftsOf] at hs
  · exact ⟨by simp only [PerT.Ok, litPer, Good]; decide +kernel, fun o q e => by
      simp only [Option.some.injEq, Prod.mk.injEq] at e
      obtain ⟨-, rfl⟩ := e
      simp only [PerT.Ok, litPer, Good]; decide +kernel⟩
  · exact ⟨fun s hs => by simp at hs, by simp, by simp⟩
  · intro s hs; simp [shiftsOf] at hs
  · refine ⟨fun s hs => ?_, by decide, by decide⟩
    simp only [List.mem_cons, List.not_mem_nil, or_false] at hs
    rcases hs with rfl | rfl
    · exact ⟨by omega, by omega, fun k e => by cases e; omega⟩
    · refine ⟨by simp, fun f hf => ?_⟩
      simp only [List.mem_cons, List.not_mem_nil, or_false] at hf
      rcases hf with rfl | rfl
      · exact ⟨by decide, by decide, fun o g e => by cases e⟩
      · exact ⟨by decide, by decide, fun o g e => by
          simp only [Option.some.injEq, Prod.mk.injEq] at e
          obtain ⟨rfl, rfl⟩ := e
          exact ⟨rfl, by unfold Shorts; omega⟩⟩
  · intro s hs; simp [shiftsOf] at hs
  · refine ⟨fun s hs => ?_, by decide, by decide⟩
    simp only [List.mem_cons, List.not_mem_nil, or_false] at hs
    rcases hs with rfl | rfl
    · trivial
    · exact ⟨by omega, by omega, fun k e => by cases e⟩
  · intro s hs
    simp only [shiftsOf, List.filterMap_cons, List.filterMap_nil, List.mem_singleton] at hs
    subst hs
    exact ⟨fun h => by simp at h, fun h => by simp at h⟩

/-- The sample above has 15 columns: one column and two repetitions over two files, three times. -/
example : (compile (print exParts)) = .ok (meaning exParts) ∧ (meaning exParts).length = 15 ∧
    (meaning exParts)[4]? = some ⟨⟨1999, 1, 'Q'⟩, some (.grt, ⟨1997, 4, 'Q'⟩), 1, some (.diff, 2)⟩ ∧
    (meaning exParts)[5]? = some ⟨⟨2002, 1, 'Y'⟩, none, 1, none⟩ :=
  ⟨C43_compiles_partial _ exParts_ok, by decide +kernel, by decide +kernel, by decide +kernel⟩

/-! ## Numbers and places of the columns -/

theorem flatMap_length {α β : Type} {l : List α} {g : α → List β} {k : Nat} (h : ∀ a ∈ l, (g a).length = k) :
    (l.flatMap g).length = l.length * k := by
  induction l with
  | nil => simp
  | cons a l ih =>
    rw [List.flatMap_cons, List.length_append, ih fun a ha => h a (List.mem_cons_of_mem _ ha), h a List.mem_cons_self,
      List.length_cons, Nat.succ_mul]
    omega

theorem flatMap_getElem {α β : Type} {l : List α} {g : α → List β} {k : Nat} (h : ∀ a ∈ l, (g a).length = k) (i : Nat) {j : Nat}
    (hj : j < k) : (l.flatMap g)[i * k + j]? = l[i]?.bind fun a => (g a)[j]? := by
  induction l generalizing i with
  | nil => simp
  | cons a l ih =>
    have ha := h a List.mem_cons_self
    rw [List.flatMap_cons]
    cases i with
    | zero => rw [List.getElem?_append_left (by omega)]; simp
    | succ i =>
      rw [List.getElem?_append_right (by rw [ha, Nat.succ_mul]; omega), List.getElem?_cons_succ,
        ← ih (fun a ha => h a (List.mem_cons_of_mem _ ha)) i, ha, Nat.succ_mul]
      congr 1
      omega

/-- The number of columns and where each is, in a product over a list of files. -/
theorem product_files {cs : List Col} (h0 : ∀ c ∈ cs, c.file = 0) (fs : List Fil) (n : Nat) (d : Int) :
    (product cs (some fs) n d).length = n * cs.length * fs.length ∧
    ∀ (i j m : Nat) (c : Col) (f : Fil), i < n → cs[j]? = some c → fs[m]? = some f →
      (product cs (some fs) n d)[(i * cs.length + j) * fs.length + m]? =
        some { repeated (i * d) c with file := f.1, opf := f.2 } := by
  have hin : ∀ (k : Int) c, c ∈ cs → inFiles fs (repeated k c) = fs.map fun f => { repeated k c with file := f.1, opf := f.2 } := by
    intro k c hc
    unfold inFiles
    rw [if_pos (show (repeated k c).file = 0 from h0 c hc)]
  have h1 : ∀ (i : Nat), ∀ c ∈ cs, (inFiles fs (repeated (i * d) c)).length = fs.length := fun i c hc => by
    rw [hin _ c hc, List.length_map]
  have h2 : ∀ i ∈ List.range n, (cs.flatMap fun c => inFiles fs (repeated ((i : Nat) * d) c)).length = cs.length * fs.length :=
    fun i _ => flatMap_length (h1 i)
  constructor
  · unfold product
    rw [flatMap_length h2, List.length_range, Nat.mul_assoc]
  · intro i j m c f hi hc hf
    obtain ⟨hj, hcj⟩ := List.getElem?_eq_some_iff.1 hc
    obtain ⟨hm, hfm⟩ := List.getElem?_eq_some_iff.1 hf
    unfold product
    have e : (i * cs.length + j) * fs.length + m = i * (cs.length * fs.length) + (j * fs.length + m) := by
      rw [Nat.add_mul, Nat.mul_assoc]; omega
    have hlt : j * fs.length + m < cs.length * fs.length := by
      have : (j + 1) * fs.length ≤ cs.length * fs.length := Nat.mul_le_mul_right _ hj
      rw [Nat.succ_mul] at this
      omega
    simp only
    rw [e, flatMap_getElem h2 i hlt, List.getElem?_range hi, Option.bind_some, flatMap_getElem (h1 i) j hm, hc, Option.bind_some,
      hin _ c (by rw [← hcj]; exact List.getElem_mem hj), List.getElem?_map, hf]
    rfl

/-- The same in the workspace, without files. -/
theorem product_none_get {cs : List Col} (n : Nat) (d : Int) :
    (product cs none n d).length = n * cs.length ∧
    ∀ (i j : Nat) (c : Col), i < n → cs[j]? = some c → (product cs none n d)[i * cs.length + j]? = some (repeated (i * d) c) := by
  have hs : ∀ i : Nat, (cs.flatMap fun c => [repeated (i * d) c]) = cs.map fun c => repeated (i * d) c := fun i => by
    rw [List.flatMap_def, ← List.flatMap_def, List.map_eq_flatMap]
  have h2 : ∀ i ∈ List.range n, (cs.flatMap fun c => [repeated ((i : Nat) * d) c]).length = cs.length := fun i _ => by
    rw [hs, List.length_map]
  constructor
  · unfold product
    simp only
    rw [flatMap_length h2, List.length_range]
  · intro i j c hi hc
    obtain ⟨hj, hcj⟩ := List.getElem?_eq_some_iff.1 hc
    unfold product
    simp only
    rw [flatMap_getElem h2 i hj, List.getElem?_range hi, Option.bind_some, hs, List.getElem?_map, hc]
    rfl

/-- A group of `k` columns without files, repeated `n` times with increment `d` over `f` files, compiles to `n * k * f` columns: the
`m`-th file of the `j`-th column of the `i`-th repetition is `i * d` periods later than the `j`-th column. -/
theorem C43_group_partial (ps : Parts) (h : ps.Ok) (hc : ∀ c ∈ cols ps, c.file = 0) (fs : List Fil) (hf : (Suf.files fs).Ok)
    (n : Nat) (d : Int) (hr : (Suf.rep n (some d)).Ok) :
    ∃ r, compile (print (.one (.group ps) [.files fs, .rep n (some d)])) = .ok r ∧
      r.length = n * (cols ps).length * fs.length ∧
      ∀ (i j m : Nat) (c : Col) (f : Fil), i < n → (cols ps)[j]? = some c → fs[m]? = some f →
        r[(i * (cols ps).length + j) * fs.length + m]? = some { repeated (i * d) c with file := f.1, opf := f.2 } := by
  have hok : (Parts.one (.group ps) [.files fs, .rep n (some d)]).Ok := by
    rw [Parts.Ok]
    refine ⟨by rw [Item.Ok]; exact h, ⟨?_, Nat.le_of_ble_eq_true rfl, Nat.le_of_ble_eq_true rfl⟩, ?_, by rw [Attached]; trivial; intro _ _ _ h; cases h⟩
    · intro s hs
      simp only [List.mem_cons, List.not_mem_nil, or_false] at hs
      rcases hs with rfl | rfl
      · exact hf
      · exact hr
    · intro s hs; simp [shiftsOf] at hs
  refine ⟨_, C43_compiles_partial _ hok, ?_⟩
  have e : cols (.one (.group ps) [.files fs, .rep n (some d)]) = product (cols ps) (some fs) n d := by
    rw [cols, itemCols]
    rfl
  obtain ⟨h1, h2⟩ := product_files hc fs n d
  unfold meaning
  rw [e]
  refine ⟨by rw [List.length_map]; exact h1, fun i j m c f hi hcj hfm => ?_⟩
  rw [List.getElem?_map, h2 i j m c f hi hcj hfm, Option.map_some]
  have : (1 : Int) ≤ f.1 := by
    obtain ⟨hm, rfl⟩ := List.getElem?_eq_some_iff.1 hfm
    exact (hf.2 _ (List.getElem_mem hm)).1
  rw [if_neg (by simp only; omega)]

/-- `(2000;2001/2000)[1;2]:3*4`: twelve columns. -/
def exGroup : Parts := .cons (.col ⟨⟨.year 2000, []⟩, none⟩) [] (.one (.col ⟨⟨.year 2001, []⟩, some (.grt, ⟨.year 2000, []⟩)⟩) [])

theorem exGroup_ok : exGroup.Ok := by
  simp only [exGroup, Parts.Ok, Item.Ok, Attached]
  refine ⟨⟨⟨by simp [PerT.Ok, litPer, Good, inYear], fun o q e => by cases e⟩, ⟨fun s hs => by simp at hs, by simp, by simp⟩,
      fun s hs => by simp [shiftsOf] at hs, trivial⟩,
    ⟨by simp [PerT.Ok, litPer, Good, inYear], fun o q e => ?_⟩, ⟨fun s hs => by simp at hs, by simp, by simp⟩,
      fun s hs => by simp [shiftsOf] at hs, trivial⟩
  simp only [Option.some.injEq, Prod.mk.injEq] at e
  obtain ⟨-, rfl⟩ := e
  simp [PerT.Ok, litPer, Good, inYear]

example : ∃ r, compile (print (.one (.group exGroup) [.files [(1, none), (2, none)], .rep 3 (some 4)])) = .ok r ∧ r.length = 12 ∧
    r[7]? = some ⟨⟨2005, 1, 'Y'⟩, some (.grt, ⟨2004, 1, 'Y'⟩), 2, none⟩ := by
  obtain ⟨r, h1, h2, h3⟩ := C43_group_partial exGroup exGroup_ok (by decide +kernel) [(1, none), (2, none)]
    ⟨by simp, fun f hf => by
      simp only [List.mem_cons, List.not_mem_nil, or_false] at hf
      rcases hf with rfl | rfl <;> exact ⟨by decide, by decide, fun o g e => by cases e⟩⟩ 3 4
    ⟨by omega, by omega, fun k e => by cases e; omega⟩
  exact ⟨r, h1, h2, by rw [show 7 = (1 * (cols exGroup).length + 1) * 2 + 1 by decide +kernel]; exact (h3 1 1 1 _ (2, none) (by omega) rfl rfl).trans (by decide +kernel)⟩

/-- A shift to the right of a group moves every period of every column of the group by the same number of periods. -/
theorem C43_shift_right_partial (ps : Parts) (h : ps.Ok) (k : Nat) (hk : k ≠ 0) :
    compile (print (.one (.group ps) [.shift (false, k)])) = .ok ((meaning ps).map (onPers (later k))) := by
  have hok : (Parts.one (.group ps) [.shift (false, k)]).Ok := by
    rw [Parts.Ok]
    refine ⟨by rw [Item.Ok]; exact h, ⟨?_, Nat.le_of_ble_eq_true rfl, Nat.le_of_ble_eq_true rfl⟩, ?_, by rw [Attached]; trivial; intro _ _ _ h; cases h⟩
    · intro s hs
      rw [List.mem_singleton.1 hs]
      trivial
    · intro s hs
      simp only [shiftsOf, List.filterMap_cons, List.filterMap_nil, List.mem_singleton] at hs
      subst hs
      exact ⟨fun h => by simp at h, fun h => absurd h.2 hk⟩
  rw [C43_compiles_partial _ hok]
  refine congrArg Res.ok ?_
  have hm : moved (false, k) = later k := by
    funext p
    unfold moved
    rw [if_neg hk]
    rfl
  have hg := good_cols ps h
  have e : cols (.one (.group ps) [.shift (false, k)]) = (cols ps).map (onPers (later k)) := by
    rw [cols, itemCols]
    show product ((cols ps).map (onPers (moved (false, k)))) none 1 1 = _
    rw [hm]
    unfold product
    simp only [List.range_one, List.flatMap_cons, List.flatMap_nil, List.append_nil]
    generalize hL : (cols ps).map (onPers (later k)) = L
    have hgl : ∀ c ∈ L, GoodCol c := by
      rw [← hL]
      intro c hc
      obtain ⟨c', hc', rfl⟩ := List.mem_map.1 hc
      exact good_onPers (fun p hp => good_later hp _) (hg c' hc')
    clear hL
    induction L with
    | nil => rfl
    | cons c L ih =>
      rw [List.flatMap_cons, ih fun c hc => hgl c (List.mem_cons_of_mem _ hc)]
      have hc := hgl c List.mem_cons_self
      have : repeated (((0 : Nat) : Int) * 1) c = c := by
        obtain ⟨p, oq, f, g⟩ := c
        unfold repeated
        simp only [Int.mul_one]
        rw [show ((0 : Nat) : Int) = 0 from rfl, later_zero hc.1]
        congr 1
        cases oq with
        | none => rfl
        | some oq =>
          obtain ⟨o, q⟩ := oq
          simp only [Option.map_some]
          rw [later_zero (hc.2.1 o q rfl)]
          simp
      rw [this]
      rfl
  unfold meaning
  rw [e, List.map_map, List.map_map]
  congr 1
  funext c
  simp only [Function.comp]
  by_cases h0 : c.file = 0
  · rw [if_pos (show (onPers (later k) c).file = 0 from h0), if_pos h0]; rfl
  · rw [if_neg (show ¬ (onPers (later k) c).file = 0 from h0), if_neg h0]

example : compile (print (.one (.group exGroup) [.shift (false, 3)])) =
    .ok [⟨⟨2003, 1, 'Y'⟩, none, 1, none⟩, ⟨⟨2004, 1, 'Y'⟩, some (.grt, ⟨2003, 1, 'Y'⟩), 1, none⟩] :=
  (C43_shift_right_partial exGroup exGroup_ok 3 (by omega)).trans (by decide +kernel)

/-! ## Whatever is accepted -/

/-- The periods of the workspace named in the text are periods of a calendar. -/
def Anchored (ts : List Tok) : Prop := ∀ p, Tok.anchor p ∈ ts → Good p

theorem Anchored.suffix {ts ts' : List Tok} (h : Anchored ts) (hs : ts' <:+ ts) : Anchored ts' := fun p hp => h p (hs.subset hp)

/-- What is kept about every column: its first period and its first file. -/
def Fine (c : Col) : Prop := Good c.per ∧ 0 ≤ c.file ∧ c.file ≤ 10

theorem bind_inv {α β : Type} {x : Res α} {f : α → Res β} {b : β} (h : x.bind f = .ok b) : ∃ a, x = .ok a ∧ f a = .ok b := by
  cases x with
  | ok a => exact ⟨a, rfl, h⟩
  | err => cases h
  | ub => cases h

theorem shiftPer_good {b : Bool} {n : Int} {p q : Period} (hp : Good p) (hn : 0 ≤ n) (h : shiftPer b n p = .ok q) : Good q := by
  obtain ⟨m, rfl⟩ := Int.eq_ofNat_of_zero_le hn
  rw [shiftPer_moved hp] at h
  rw [← Res.ok.inj h]
  exact good_moved hp _

theorem readShifts_good {p : Period} {ts : List Tok} {q : Period} {ts' : List Tok} (hp : Good p) (h : readShifts p ts = .ok (q, ts')) :
    Good q ∧ ts' <:+ ts := by
  fun_induction readShifts p ts with
  | case1 p n ts hn => cases h
  | case2 p n ts hn ih =>
    obtain ⟨p', h1, h2⟩ := bind_inv h
    obtain ⟨hg, hs⟩ := ih p' (shiftPer_good hp (by omega) h1) h2
    exact ⟨hg, hs.trans ((List.suffix_cons _ _).trans (List.suffix_cons _ _))⟩
  | case3 p n ts hn => cases h
  | case4 p n ts hn ih =>
    obtain ⟨p', h1, h2⟩ := bind_inv h
    obtain ⟨hg, hs⟩ := ih p' (shiftPer_good hp (by omega) h1) h2
    exact ⟨hg, hs.trans ((List.suffix_cons _ _).trans (List.suffix_cons _ _))⟩
  | case5 => cases h
  | case6 => cases h
  | case7 => cases h; exact ⟨hp, List.suffix_refl _⟩

theorem good_of_steps {c : Char} {nb s y : Int} (h : stepsOf c = some nb) (h1 : 1 ≤ s) (h2 : s ≤ nb) : Good ⟨y, s, toUpperC c⟩ := by
  unfold stepsOf at h
  generalize toUpperC c = d at h
  unfold mapPeriodicities at h
  split at h <;> first | (cases h; done) | (cases h; exact ⟨by simp, h1, h2⟩)

theorem readLetter_good {p : Period} {ts : List Tok} {q : Period} {ts' : List Tok} (hp : Good p) (h : readLetter p ts = .ok (q, ts')) :
    Good q ∧ ts' <:+ ts := by
  unfold readLetter at h
  split at h
  · split at h
    · cases h
    · rename_i nb hnb
      split at h
      · split at h
        · cases h
        · obtain ⟨hg, hs⟩ := readShifts_good (good_of_steps hnb (by omega) (by omega)) h
          exact ⟨hg, hs.trans ((List.suffix_cons _ _).trans (List.suffix_cons _ _))⟩
      · cases h
  · exact readShifts_good hp h

theorem readPer_good {ts : List Tok} {q : Period} {ts' : List Tok} (ha : Anchored ts) (h : readPer ts = .ok (q, ts')) :
    Good q ∧ ts' <:+ ts := by
  unfold readPer at h
  split at h
  · obtain ⟨hg, hs⟩ := readLetter_good ⟨by simp, by simp, by simp [inYear]⟩ h
    exact ⟨hg, hs.trans (List.suffix_cons _ _)⟩
  · obtain ⟨hg, hs⟩ := readLetter_good (ha _ List.mem_cons_self) h
    exact ⟨hg, hs.trans (List.suffix_cons _ _)⟩
  · cases h

theorem readY_good {ts : List Tok} {cs : List Col} {ts' : List Tok} (ha : Anchored ts) (h : readY ts = .ok (cs, ts')) :
    (cs ≠ [] ∧ ∀ c ∈ cs, Fine c) ∧ ts' <:+ ts := by
  obtain ⟨⟨p, t1⟩, h1, h2⟩ := bind_inv h
  obtain ⟨hg, hs⟩ := readPer_good ha h1
  simp only at h2
  split at h2
  · obtain ⟨⟨q, t2⟩, h3, h4⟩ := bind_inv h2
    obtain ⟨-, hs2⟩ := readPer_good (ha.suffix ((List.suffix_cons _ _).trans hs)) h3
    cases h4
    refine ⟨⟨by simp, fun c hc => ?_⟩, hs2.trans ((List.suffix_cons _ _).trans hs)⟩
    rw [List.mem_singleton.1 hc]
    exact ⟨hg, by simp, by simp⟩
  · cases h2
    refine ⟨⟨by simp, fun c hc => ?_⟩, hs⟩
    rw [List.mem_singleton.1 hc]
    exact ⟨hg, by simp, by simp⟩

theorem readRep_good {ts : List Tok} {r : Int × Int} {ts' : List Tok} (h : readRep ts = .ok (r, ts')) : 0 ≤ r.1 ∧ ts' <:+ ts := by
  have hi : ∀ {nb : Int} {ts : List Tok}, 0 ≤ nb → readIncr nb ts = .ok (r, ts') → 0 ≤ r.1 ∧ ts' <:+ ts := by
    intro nb ts hn h
    unfold readIncr at h
    split at h
    · split at h
      · cases h
      · cases h
        exact ⟨hn, (List.suffix_cons _ _).trans ((List.suffix_cons _ _).trans (List.suffix_cons _ _))⟩
    · split at h
      · cases h
      · cases h
        exact ⟨hn, (List.suffix_cons _ _).trans (List.suffix_cons _ _)⟩
    · cases h
    · cases h; exact ⟨hn, List.suffix_refl _⟩
  unfold readRep at h
  split at h
  · split at h
    · cases h
    · obtain ⟨h1, h2⟩ := hi (by omega) h
      exact ⟨h1, h2.trans (List.suffix_cons _ _)⟩
  · cases h

theorem readFile_good {ts : List Tok} {f : Fil} {ts' : List Tok} (h : readFile ts = .ok (f, ts')) : (1 ≤ f.1 ∧ f.1 ≤ 10) ∧ ts' <:+ ts := by
  unfold readFile at h
  split at h
  · split at h
    · cases h
    · split at h
      · split at h
        · split at h
          · cases h
            exact ⟨⟨by omega, by omega⟩, (List.suffix_cons _ _).trans ((List.suffix_cons _ _).trans (List.suffix_cons _ _))⟩
          · cases h
        · cases h
          exact ⟨⟨by omega, by omega⟩, List.suffix_cons _ _⟩
      · cases h
        exact ⟨⟨by omega, by omega⟩, List.suffix_cons _ _⟩
  · cases h

theorem readFiles_good {n : Nat} {ts : List Tok} {fs : List Fil} {ts' : List Tok} (h : readFiles n ts = .ok (fs, ts')) :
    (fs ≠ [] ∧ ∀ f ∈ fs, 1 ≤ f.1 ∧ f.1 ≤ 10) ∧ ts' <:+ ts := by
  induction n generalizing ts fs ts' with
  | zero => cases h
  | succ n ih =>
    obtain ⟨⟨f, t1⟩, h1, h2⟩ := bind_inv h
    obtain ⟨hf, hs⟩ := readFile_good h1
    simp only at h2
    split at h2
    · obtain ⟨⟨fs', t2⟩, h3, h4⟩ := bind_inv h2
      obtain ⟨⟨-, hfs⟩, hs2⟩ := ih h3
      cases h4
      refine ⟨⟨by simp, fun g hg => ?_⟩, hs2.trans ((List.suffix_cons _ _).trans hs)⟩
      rcases List.mem_cons.1 hg with rfl | hg
      · exact hf
      · exact hfs g hg
    · cases h2
      exact ⟨⟨by simp, fun g hg => by rw [List.mem_singleton.1 hg]; exact hf⟩, (List.suffix_cons _ _).trans hs⟩
    · cases h2

theorem shiftCols_fine {b : Bool} {nb : Int} {cs r : List Col} (hc : ∀ c ∈ cs, Fine c) (h : shiftCols b nb cs = .ok r) :
    (cs ≠ [] → r ≠ []) ∧ ∀ c ∈ r, Fine c := by
  induction cs generalizing nb r with
  | nil => cases h; exact ⟨fun h => h, fun c hc => by simp at hc⟩
  | cons c cs ih =>
    have h0 := hc c List.mem_cons_self
    have hcs : ∀ c ∈ cs, Fine c := fun c h => hc c (List.mem_cons_of_mem _ h)
    rw [shiftCols] at h
    split at h
    · obtain ⟨s, h1, h2⟩ := bind_inv h
      obtain ⟨r', h3, h4⟩ := bind_inv h2
      cases h4
      obtain ⟨-, hr⟩ := ih hcs h3
      refine ⟨fun _ => by simp, fun x hx => ?_⟩
      rcases List.mem_cons.1 hx with rfl | hx
      · refine ⟨⟨h0.1.1, ?_⟩, h0.2⟩
        have hp := inYear_pos c.per.periodicity
        show 1 ≤ s ∧ s ≤ inYear c.per.periodicity
        cases b
        · rw [if_neg (by simp), nb_good h0.1] at h1
          obtain rfl := Res.ok.inj h1
          omega
        · rw [if_pos rfl] at h1
          obtain rfl := Res.ok.inj h1
          omega
      · exact hr x hx
    · obtain ⟨p, h1, h2⟩ := bind_inv h
      rw [shift_later h0.1] at h1
      obtain rfl := Res.ok.inj h1
      have fin : ∀ {k : Int} {r' : List Col} (y : Option (Op × Period)), shiftCols b k cs = .ok r' →
          ∀ x ∈ ({ c with per := later (if b = true then -nb else nb) c.per, opy := y } :: r'), Fine x := by
        intro k r' y h3 x hx
        rcases List.mem_cons.1 hx with rfl | hx
        · exact ⟨good_later h0.1 _, h0.2⟩
        · exact (ih hcs h3).2 x hx
      split at h2
      · rename_i e
        obtain ⟨r', h3, h4⟩ := bind_inv h2
        cases h4
        refine ⟨fun _ => by simp, ?_⟩
        exact fin c.opy h3
      · obtain ⟨q', h3, h4⟩ := bind_inv h2
        obtain ⟨r', h5, h6⟩ := bind_inv h4
        cases h6
        exact ⟨fun _ => by simp, fin _ h5⟩

theorem withFiles_fine {fs : List Fil} (hfs : fs ≠ []) (hf : ∀ f ∈ fs, 0 ≤ f.1 ∧ f.1 ≤ 10) {c : Col} (hc : Fine c) :
    withFiles fs c ≠ [] ∧ ∀ x ∈ withFiles fs c, Fine x := by
  unfold withFiles
  split
  · refine ⟨by simpa using hfs, fun x hx => ?_⟩
    obtain ⟨f, hfm, rfl⟩ := List.mem_map.1 hx
    exact ⟨hc.1, hf f hfm⟩
  · exact ⟨by simp, fun x hx => by rw [List.mem_singleton.1 hx]; exact hc⟩

theorem repeatCol_fine {d : Int} {c x : Col} (hc : Fine c) (h : repeatCol d c = .ok x) : Fine x := by
  unfold repeatCol at h
  rw [shift_later hc.1] at h
  simp only [Res.bind] at h
  split at h
  · cases h; exact ⟨good_later hc.1 _, hc.2⟩
  · cases h; exact ⟨good_later hc.1 _, hc.2⟩
  · split at h
    · cases h; exact ⟨good_later hc.1 _, hc.2⟩
    · cases h
    · cases h

theorem repeatCols_fine {fs : List Fil} (hfs : fs ≠ []) (hf : ∀ f ∈ fs, 0 ≤ f.1 ∧ f.1 ≤ 10) {d : Int} {cs r : List Col}
    (hc : ∀ c ∈ cs, Fine c) (h : repeatCols fs d cs = .ok r) : (cs ≠ [] → r ≠ []) ∧ ∀ c ∈ r, Fine c := by
  induction cs generalizing r with
  | nil => cases h; exact ⟨fun h => h, fun c hc => by simp at hc⟩
  | cons c cs ih =>
    obtain ⟨c', h1, h2⟩ := bind_inv h
    obtain ⟨r', h3, h4⟩ := bind_inv h2
    cases h4
    obtain ⟨hw1, hw2⟩ := withFiles_fine hfs hf (repeatCol_fine (hc c List.mem_cons_self) h1)
    refine ⟨fun _ => by simp [hw1], fun x hx => ?_⟩
    rcases List.mem_append.1 hx with hx | hx
    · exact hw2 x hx
    · exact (ih (fun c h => hc c (List.mem_cons_of_mem _ h)) h3).2 x hx

theorem constructLoop_fine {fs : List Fil} (hfs : fs ≠ []) (hf : ∀ f ∈ fs, 0 ≤ f.1 ∧ f.1 ≤ 10) {cs : List Col} (hc : ∀ c ∈ cs, Fine c)
    (hne : cs ≠ []) {d : Int} {n : Nat} {i : Int} {r : List Col} (h : constructLoop cs fs d n i = .ok r) :
    (n ≠ 0 → r ≠ []) ∧ ∀ c ∈ r, Fine c := by
  induction n generalizing i r with
  | zero => cases h; exact ⟨fun h => absurd rfl h, fun c hc => by simp at hc⟩
  | succ n ih =>
    obtain ⟨a, h1, h2⟩ := bind_inv h
    obtain ⟨r', h3, h4⟩ := bind_inv h2
    cases h4
    obtain ⟨hw1, hw2⟩ := repeatCols_fine hfs hf hc h1
    refine ⟨fun _ => by simp [hw1 hne], fun x hx => ?_⟩
    rcases List.mem_append.1 hx with hx | hx
    · exact hw2 x hx
    · exact (ih h3).2 x hx

theorem construct_fine {cs : List Col} (hc : ∀ c ∈ cs, Fine c) (hne : cs ≠ []) {fs : Option (List Fil)} {rep : Int × Int}
    (hf : ∀ l, fs = some l → l ≠ [] ∧ ∀ f ∈ l, 1 ≤ f.1 ∧ f.1 ≤ 10) (hr : 0 ≤ rep.1) {r : List Col} (h : construct cs fs rep = .ok r) :
    r ≠ [] ∧ ∀ c ∈ r, Fine c := by
  have key : ∀ fl : List Fil, fl ≠ [] → (∀ f ∈ fl, 0 ≤ f.1 ∧ f.1 ≤ 10) →
      (if rep.1 = 0 then constructLoop cs fl 1 1 0 else constructLoop cs fl rep.2 rep.1.toNat 0) = .ok r → r ≠ [] ∧ ∀ c ∈ r, Fine c := by
    intro fl h1 h2 h
    split at h
    · obtain ⟨ha, hb⟩ := constructLoop_fine h1 h2 hc hne h
      exact ⟨ha (by omega), hb⟩
    · obtain ⟨ha, hb⟩ := constructLoop_fine h1 h2 hc hne h
      exact ⟨ha (by omega), hb⟩
  unfold construct at h
  cases fs with
  | none =>
    exact key [(0, none)] (by simp) (fun f hf => by rw [List.mem_singleton.1 hf]; simp) h
  | some l =>
    exact key l (hf l rfl).1 (fun f hfm => by have := (hf l rfl).2 f hfm; omega) h

/-- The variables of `COL_read_cols` hold fine columns. -/
structure FineSt (s : St) : Prop where
  cls : ∀ c ∈ s.cls, Fine c
  tmp : ∀ l, s.tmp = some l → l ≠ [] ∧ ∀ c ∈ l, Fine c
  rep : 0 ≤ s.rep.1
  fils : ∀ l, s.fils = some l → l ≠ [] ∧ ∀ f ∈ l, 1 ≤ f.1 ∧ f.1 ≤ 10

theorem readCols_fine {n : Nat} {s : St} {ts : List Tok} {r : List Col} {ts' : List Tok} (hs : FineSt s) (ha : Anchored ts)
    (h : readCols n s ts = .ok (r, ts')) : (r ≠ [] ∧ ∀ c ∈ r, Fine c) ∧ ts' <:+ ts := by
  induction n generalizing s ts r ts' with
  | zero => cases h
  | succ n ih =>
    have hcon : ∀ cs, s.tmp = some cs → ∀ r', construct cs s.fils s.rep = .ok r' → s.cls ++ r' ≠ [] ∧ ∀ c ∈ s.cls ++ r', Fine c := by
      intro cs hcs r' hr'
      obtain ⟨h1, h2⟩ := construct_fine (hs.tmp cs hcs).2 (hs.tmp cs hcs).1 hs.fils hs.rep hr'
      refine ⟨by simp [h1], fun c hc => ?_⟩
      rcases List.mem_append.1 hc with hc | hc
      · exact hs.cls c hc
      · exact h2 c hc
    have htmp : ∀ {cs t1}, (cs ≠ [] ∧ ∀ c ∈ cs, Fine c) → t1 <:+ ts → readCols n { s with tmp := some cs } t1 = .ok (r, ts') →
        (r ≠ [] ∧ ∀ c ∈ r, Fine c) ∧ ts' <:+ ts := by
      intro cs t1 hcs hsuf h
      have hst : FineSt { s with tmp := some cs } := ⟨hs.cls, fun l e => by cases e; exact hcs, hs.rep, hs.fils⟩
      obtain ⟨h1, h2⟩ := ih hst (ha.suffix hsuf) h
      exact ⟨h1, h2.trans hsuf⟩
    rw [readCols.eq_def] at h
    simp only at h
    split at h
    · split at h
      · cases h
      · rename_i cs e
        obtain ⟨r', h1, h2⟩ := bind_inv h
        cases h2
        exact ⟨hcon cs e r' h1, List.suffix_refl _⟩
    · split at h
      · cases h
      · rename_i cs e
        obtain ⟨r', h1, h2⟩ := bind_inv h
        cases h2
        exact ⟨hcon cs e r' h1, List.suffix_cons _ _⟩
    · split at h
      · cases h
      · rename_i cs e
        obtain ⟨r', h1, h2⟩ := bind_inv h
        obtain ⟨h3, h4⟩ := ih ⟨(hcon cs e r' h1).2, (fun l e => by cases e), by simp, fun l e => by cases e⟩
          (ha.suffix (List.suffix_cons _ _)) h2
        exact ⟨h3, h4.trans (List.suffix_cons _ _)⟩
    · split at h
      · cases h
      · obtain ⟨⟨cs, t1⟩, h1, h2⟩ := bind_inv h
        obtain ⟨h3, h4⟩ := readY_good ha h1
        exact htmp h3 h4 h2
    · split at h
      · cases h
      · obtain ⟨⟨cs, t1⟩, h1, h2⟩ := bind_inv h
        obtain ⟨h3, h4⟩ := readY_good ha h1
        exact htmp h3 h4 h2
    · split at h
      · cases h
      · obtain ⟨⟨cs, t1⟩, h1, h2⟩ := bind_inv h
        obtain ⟨h3, h4⟩ := ih (s := St.start) ⟨fun c hc => by simp [St.start] at hc, (fun l e => by cases e), by simp [St.start],
          fun l e => by cases e⟩ (ha.suffix (List.suffix_cons _ _)) h1
        exact htmp h3 (h4.trans (List.suffix_cons _ _)) h2
    · split at h
      · cases h
      · split at h
        · cases h
        · obtain ⟨⟨rp, t1⟩, h1, h2⟩ := bind_inv h
          obtain ⟨h3, h4⟩ := readRep_good h1
          have hsuf := h4.trans (List.suffix_cons Tok.colon _)
          obtain ⟨h5, h6⟩ := ih (s := { s with rep := rp }) ⟨hs.cls, hs.tmp, h3, hs.fils⟩ (ha.suffix hsuf) h2
          exact ⟨h5, h6.trans hsuf⟩
    · split at h
      · obtain ⟨⟨fs, t1⟩, h1, h2⟩ := bind_inv h
        obtain ⟨h3, h4⟩ := readFiles_good h1
        have hsuf := h4.trans (List.suffix_cons Tok.obrack _)
        obtain ⟨h5, h6⟩ := ih (s := { s with fils := some fs }) ⟨hs.cls, hs.tmp, hs.rep, fun l e => by cases e; exact h3⟩
          (ha.suffix hsuf) h2
        exact ⟨h5, h6.trans hsuf⟩
      · cases h
    · split at h
      · cases h
      · split at h
        · cases h
        · rename_i cs e _
          obtain ⟨cs', h1, h2⟩ := bind_inv h
          obtain ⟨h3, h4⟩ := shiftCols_fine (hs.tmp _ e).2 h1
          exact htmp ⟨h3 (hs.tmp _ e).1, h4⟩ ((List.suffix_cons _ _).trans (List.suffix_cons _ _)) h2
    · split at h
      · cases h
      · split at h
        · cases h
        · rename_i cs e _
          obtain ⟨cs', h1, h2⟩ := bind_inv h
          obtain ⟨h3, h4⟩ := shiftCols_fine (hs.tmp _ e).2 h1
          exact htmp ⟨h3 (hs.tmp _ e).1, h4⟩ ((List.suffix_cons _ _).trans (List.suffix_cons _ _)) h2
    · cases h

/-- Whatever the text, well written or not: if it compiles there is at least one column, and every column has a first period that
exists in its calendar and a first file between 1 and 10. -/
theorem C43_valid (ts : List Tok) (ha : Anchored ts) (r : List Col) (h : compile ts = .ok r) :
    r ≠ [] ∧ ∀ c ∈ r, Good c.per ∧ 1 ≤ c.file ∧ c.file ≤ 10 := by
  obtain ⟨⟨cs, t1⟩, h1, h2⟩ := bind_inv h
  obtain ⟨⟨h3, h4⟩, -⟩ := readCols_fine (s := St.start) ⟨fun c hc => by simp [St.start] at hc, (fun l e => by cases e), by simp [St.start],
    fun l e => by cases e⟩ ha h1
  cases h2
  refine ⟨by simpa using h3, fun c hc => ?_⟩
  obtain ⟨c', hc', rfl⟩ := List.mem_map.1 hc
  obtain ⟨g1, g2, g3⟩ := h4 c' hc'
  by_cases h0 : c'.file = 0
  · simp only [h0, if_true]
    exact ⟨g1, by omega, by omega⟩
  · simp only [h0, if_false]
    exact ⟨g1, by omega, g3⟩

example : compile [.anchor ⟨2000, 3, 'Q'⟩, .left, .num 0, .op .base, .num 99, .obrack, .num 7, .cbrack] =
    .ok [⟨⟨2000, 1, 'Q'⟩, some (.base, ⟨1999, 1, 'Y'⟩), 7, none⟩] := by decide +kernel

/-! ## Deviations -/

/-- `(2000;2001;2002)<1`: the second column of a group shifted to the left goes to the right. -/
theorem C43_left_counterexample :
    compile [.opar, .num 2000, .semicolon, .num 2001, .semicolon, .num 2002, .cpar, .left, .num 1] =
      .ok [⟨⟨1999, 1, 'Y'⟩, none, 1, none⟩, ⟨⟨2002, 1, 'Y'⟩, none, 1, none⟩, ⟨⟨2001, 1, 'Y'⟩, none, 1, none⟩] := by decide +kernel

/-- `2000Q3/2000Q1<2`, documented as `2000Q1/1999Q3` (c_cc.cpp 896), shifts the second period only. -/
theorem C43_documented_counterexample :
    compile [.num 2000, .letter 'Q', .num 3, .op .grt, .num 2000, .letter 'Q', .num 1, .left, .num 2] =
      .ok [⟨⟨2000, 3, 'Q'⟩, some (.grt, ⟨1999, 3, 'Q'⟩), 1, none⟩] := by decide +kernel

/-- `(2000Q1/1999)>0`: the year 1999 becomes the fourth period of a year that has one only, which is then read as 2002. -/
theorem C43_end_of_year_counterexample :
    compile [.opar, .num 2000, .letter 'Q', .num 1, .op .grt, .num 1999, .cpar, .right, .num 0] =
      .ok [⟨⟨2000, 4, 'Q'⟩, some (.grt, ⟨2002, 1, 'Y'⟩), 1, none⟩] := by decide +kernel

/-- `2000[1-50]`: the second file is not checked, `(2000)[9]` neither against the five files that can be loaded. -/
theorem C43_files_counterexample :
    compile [.num 2000, .obrack, .num 1, .op .diff, .num 50, .cbrack] = .ok [⟨⟨2000, 1, 'Y'⟩, none, 1, some (.diff, 50)⟩] ∧
    compile [.num 2000, .obrack, .num 9, .cbrack] = .ok [⟨⟨2000, 1, 'Y'⟩, none, 9, none⟩] := by decide +kernel

/-- `2000);2001` compiles to the column of 2000 alone, and `(2000` is accepted: parentheses need not match. -/
theorem C43_parentheses_counterexample :
    compile [.num 2000, .cpar, .semicolon, .num 2001] = .ok [⟨⟨2000, 1, 'Y'⟩, none, 1, none⟩] ∧
    compile [.opar, .num 2000] = .ok [⟨⟨2000, 1, 'Y'⟩, none, 1, none⟩] := by
  decide +kernel

end Iode.GSample
