import Verif.Model.FileCmd
import Verif.Spec.FileCmd
import Verif.Lemmas.RepFn

/-!
# C83  Commands on files change the files they name and no others

See `properties.jsonl`.  What the arguments of `$FileCopy`, `$FileRename` and `$FileDelete` stand for is told in C64, `Expand.words` is that of C69.
-/
namespace Iode.FileCmd

open Iode.Args (Text)
open DataCmd (Out)
open Written

/-- The words of an argument. -/
theorem cut_words (arg : Text) : cut arg = Expand.words [' '] arg := by
  rw [cut, RepFn.vtoms_words _ _ _ (Nat.lt_succ_self _)]

theorem set_same (d : Disk) (p : Text) (c : Option Bytes) : (d.set p c) p = c := if_pos rfl
theorem set_other {d : Disk} {p q : Text} {c : Option Bytes} (h : q ≠ p) : (d.set p c) q = d q := if_neg h

/-! ## Extensions -/

theorem takeWhile_append {p : Char → Bool} : ∀ {l r : Text}, (∀ c ∈ l, p c = true) → (l ++ r).takeWhile p = l ++ r.takeWhile p
  | [], _, _ => rfl
  | c :: l, r, h => by
    rw [List.cons_append, List.takeWhile_cons, if_pos (h c (by simp)), takeWhile_append fun x hx => h x (by simp [hx])]
    rfl

/-- The name behind the last `/`. -/
theorem name_split (p : Text) : ∃ dir n, p = dir ++ n ∧ '/' ∉ n ∧ (dir = [] ∨ dir.getLast? = some '/') ∧
    (p.reverse.takeWhile (· ≠ '/')).reverse = n := by
  refine ⟨(p.reverse.dropWhile (· ≠ '/')).reverse, (p.reverse.takeWhile (· ≠ '/')).reverse, ?_, ?_, ?_, rfl⟩
  · rw [← List.reverse_append, List.takeWhile_append_dropWhile, List.reverse_reverse]
  · intro h
    have := List.mem_takeWhile_imp (List.mem_reverse.1 h)
    simp at this
  · cases h : p.reverse.dropWhile (· ≠ '/') with
    | nil => exact .inl rfl
    | cons a l =>
      right
      have h1 := List.head_dropWhile_not (fun c : Char => decide (c ≠ '/')) (l := p.reverse) (by rw [h]; simp)
      simp only [h, List.head_cons] at h1
      have : a = '/' := by simpa using h1
      rw [List.getLast?_reverse, List.head?_cons, this]

theorem name_of {dir n : Text} (h : '/' ∉ n) (hd : dir = [] ∨ dir.getLast? = some '/') : ((dir ++ n).reverse.takeWhile (· ≠ '/')).reverse = n := by
  rw [List.reverse_append, takeWhile_append (by
    intro c hc
    have : c ≠ '/' := by rintro rfl; exact h (List.mem_reverse.1 hc)
    simpa using this)]
  have : dir.reverse.takeWhile (· ≠ '/') = [] := by
    rcases hd with rfl | hd
    · rfl
    · rw [List.getLast?_eq_head?_reverse] at hd
      cases hr : dir.reverse with
      | nil => rfl
      | cons a l =>
        rw [hr] at hd
        cases hd
        rfl
  rw [this, List.append_nil, List.reverse_reverse]

/-- `hasExt` finds what it should. -/
theorem hasExt_iff (p : Text) : hasExt p = true ↔ HasExt p := by
  obtain ⟨dir, n, rfl, hn, hd, he⟩ := name_split p
  rw [hasExt]
  simp only [he, Bool.and_eq_true, decide_eq_true_eq]
  constructor
  · rintro ⟨h1, h2⟩
    cases n with
    | nil => simp at h2
    | cons a l =>
      obtain ⟨x, y, hxy⟩ := List.append_of_mem h2
      rw [List.tail_cons] at hxy
      refine ⟨dir, a :: x, y, by rw [hxy]; simp, by simp, fun h => hn ?_, fun h => hn ?_, hd, ?_⟩
      · rw [hxy]
        rcases List.mem_cons.1 h with h | h
        · rw [h]; exact List.mem_cons_self
        · exact List.mem_cons_of_mem _ (List.mem_append_left _ h)
      · rw [hxy]
        exact List.mem_cons_of_mem _ (List.mem_append_right _ (List.mem_cons_of_mem _ h))
      · rintro ⟨h3, rfl⟩
        cases h3
        exact h1 (by rw [hxy]; rfl)
  · rintro ⟨dir', m, e, hp, hm, h1, h2, hd', hx⟩
    have h3 : '/' ∉ m ++ '.' :: e := by
      intro h
      rcases List.mem_append.1 h with h | h
      · exact h1 h
      · rcases List.mem_cons.1 h with h | h
        · exact absurd h (by decide)
        · exact h2 h
    have h4 := name_of h3 hd'
    rw [← List.append_assoc, ← hp, he] at h4
    subst h4
    cases m with
    | nil => exact absurd rfl hm
    | cons a l =>
      refine ⟨?_, by simp⟩
      intro h5
      cases l with
      | nil =>
        simp only [List.cons_append, List.nil_append, List.cons.injEq] at h5
        exact hx ⟨by rw [h5.1], by simpa using h5.2⟩
      | cons b l =>
        have := congrArg List.length h5
        simp at this

/-- A name with the extension of its type. -/
theorem setExt_path {ty : Nat} {ext p q : Text} (hx : typeOf ext = .ok ty) (h : Path ext p q) : setExt ty p = some q := by
  have hg : exts.getD ty [] = ext := by
    rw [typeOf] at hx
    cases he : exts.findIdx? (· = ext) with
    | none => rw [he] at hx; cases hx
    | some j =>
      rw [he] at hx
      cases hx
      obtain ⟨h1, h2, _⟩ := List.findIdx?_eq_some_iff_getElem.1 he
      rw [List.getD_eq_getElem?_getD, List.getElem?_eq_getElem h1]
      simpa using h2
  rw [setExt, hg]
  cases h with
  | given h1 h2 h3 => rw [if_neg h1, if_neg (by omega), if_pos ((hasExt_iff _).2 h3)]
  | usual h1 h2 h3 => rw [if_neg h1, if_neg (by omega), if_neg (by rw [Bool.not_eq_true]; exact Bool.eq_false_iff.2 fun h => h3 ((hasExt_iff _).1 h))]

theorem readsHeader_database {c : Bytes} (h : Database c) : readsHeader c = true := by
  obtain ⟨v, r, hr, rfl, hv⟩ := h
  cases r with
  | nil => exact absurd rfl hr
  | cons a r =>
    rcases hv with rfl | rfl | rfl <;>
    · rw [readsHeader, Bool.and_eq_true, decide_eq_true_eq, decide_eq_true_eq]
      refine ⟨?_, by simp⟩
      simp only [show "KOBJS ".toList.map Char.toNat = [75, 79, 66, 74, 83, 32] by decide +kernel,
        show "564A".toList.map Char.toNat = [53, 54, 52, 65] by decide +kernel, show "4.02".toList.map Char.toNat = [52, 46, 48, 50] by decide +kernel,
        show "504d".toList.map Char.toNat = [53, 48, 52, 100] by decide +kernel]
      simp [labels]

theorem database_readsHeader {c : Bytes} (h : readsHeader c = true) : Database c := by
  rw [readsHeader, Bool.and_eq_true, decide_eq_true_eq, decide_eq_true_eq] at h
  obtain ⟨h1, h2⟩ := h
  have hc := List.take_append_drop 11 c
  have hr : c.drop 11 ≠ [] := by
    intro h
    have := congrArg List.length h
    rw [List.length_drop, List.length_nil] at this
    omega
  have e1 : "KOBJS ".toList.map Char.toNat = [75, 79, 66, 74, 83, 32] := by decide +kernel
  have e2 : "564A".toList.map Char.toNat = [53, 54, 52, 65] := by decide +kernel
  have e3 : "4.02".toList.map Char.toNat = [52, 46, 48, 50] := by decide +kernel
  have e4 : "504d".toList.map Char.toNat = [53, 48, 52, 100] := by decide +kernel
  simp only [labels, List.mem_cons, List.not_mem_nil, or_false] at h1
  rcases h1 with h1 | h1 | h1
  · exact ⟨_, c.drop 11, hr, by rw [e1, e2]; rw [h1] at hc; exact hc.symm, .inl rfl⟩
  · exact ⟨_, c.drop 11, hr, by rw [e1, e3]; rw [h1] at hc; exact hc.symm, .inr (.inl rfl)⟩
  · exact ⟨_, c.drop 11, hr, by rw [e1, e4]; rw [h1] at hc; exact hc.symm, .inr (.inr rfl)⟩

variable {W : Args.World} {may : Text → Bool} {junk : Nat → Nat} {d : Disk} {arg : Text}

/-! ## What each command does -/

/-- `$FileCopy` of a file that is no database of objects, or with a type that is none. -/
theorem C83_file_copy_partial {ext a b f t : Text} {ty : Nat} {c : Bytes} (hi : Args.init W arg = .ok (some [a, b])) (hx : typeOf ext = .ok ty)
    (ha : Path ext a f) (hb : Path ext b t) (hd : d f = some c) (hft : f ≠ t) (hm : may t = true) (hc : 6 < ty ∨ ¬ Database c) :
    ∃ d', run W may junk (.fileCopy ty) arg d = .done d' ∧ d' t = some c ∧ ∀ q, q ≠ t → d' q = d q := by
  refine ⟨d.set t (some c), ?_, set_same .., fun q hq => set_other hq⟩
  show fileCopy W may ty arg d = _
  rw [fileCopy, hi]
  simp only [setExt_path hx ha, setExt_path hx hb, hd]
  rw [if_neg (by rintro (h | h); exacts [hft h, absurd (hm.symm.trans h) (by simp)]), if_neg]
  rintro ⟨h1, h2⟩
  rcases hc with hc | hc
  · omega
  · exact hc (database_readsHeader h2)

/-- `$FileCopy` of a database of objects with the type of such files, as `$FileCopyVar`: the header is read into a null pointer. -/
theorem C83_database_undefined {ext a b f t : Text} {ty : Nat} {c : Bytes} (hi : Args.init W arg = .ok (some [a, b])) (hx : typeOf ext = .ok ty)
    (ha : Path ext a f) (hb : Path ext b t) (hd : d f = some c) (hft : f ≠ t) (hm : may t = true) (ht : ty ≤ 6) (hc : Database c) :
    run W may junk (.fileCopy ty) arg d = .ub := by
  show fileCopy W may ty arg d = _
  rw [fileCopy, hi]
  simp only [setExt_path hx ha, setExt_path hx hb, hd]
  rw [if_neg (by rintro (h | h); exacts [hft h, absurd (hm.symm.trans h) (by simp)]), if_pos ⟨ht, readsHeader_database hc⟩]

/-- `$FileRename`: a file with the new name is replaced. -/
theorem C83_file_rename {ext a b f t : Text} {ty : Nat} {c : Bytes} (hi : Args.init W arg = .ok (some [a, b])) (hx : typeOf ext = .ok ty)
    (ha : Path ext a f) (hb : Path ext b t) (hd : d f = some c) (hm : may f = true) (hm' : may t = true) :
    ∃ d', run W may junk (.fileRename ty) arg d = .done d' ∧ d' t = some c ∧ (f ≠ t → d' f = none) ∧ ∀ q, q ≠ t → q ≠ f → d' q = d q := by
  by_cases hft : f = t
  · subst hft
    refine ⟨d, ?_, hd, fun h => absurd rfl h, fun q _ _ => rfl⟩
    show fileRename W may ty arg d = _
    rw [fileRename, hi]
    simp only [setExt_path hx ha, setExt_path hx hb, hd, if_true]
  · refine ⟨(d.set t (some c)).set f none, ?_, ?_, fun _ => set_same .., fun q h1 h2 => ?_⟩
    · show fileRename W may ty arg d = _
      rw [fileRename, hi]
      simp only [setExt_path hx ha, setExt_path hx hb, hd]
      rw [if_neg hft, if_neg (by rintro (h | h); exacts [absurd (hm.symm.trans h) (by simp), absurd (hm'.symm.trans h) (by simp)])]
    · rw [set_other fun h => hft h.symm, set_same]
    · rw [set_other h2, set_other h1]

/-- The files of a list are gone if they could be removed, all other files are there. -/
theorem removeAll_get (may : Text → Bool) : ∀ (ps : List Text) (d : Disk) (q : Text),
    removeAll may d ps q = if q ∈ ps ∧ may q = true then none else d q
  | [], d, q => by simp [removeAll]
  | p :: ps, d, q => by
    show removeAll may (if may p then d.set p none else d) ps q = _
    rw [removeAll_get may ps]
    by_cases hq : q ∈ ps ∧ may q = true
    · rw [if_pos hq, if_pos ⟨List.mem_cons_of_mem _ hq.1, hq.2⟩]
    · rw [if_neg hq]
      by_cases hqp : q = p
      · subst hqp
        by_cases hm : may q = true
        · rw [if_pos hm, set_same, if_pos (⟨List.mem_cons_self, hm⟩ : q ∈ q :: ps ∧ may q = true)]
        · rw [if_neg hm, if_neg (fun h => hm h.2 : ¬ (q ∈ q :: ps ∧ may q = true))]
      · rw [if_neg (c := q ∈ p :: ps ∧ may q = true) (by rintro ⟨h1, h2⟩; rcases List.mem_cons.1 h1 with h | h; exacts [hqp h, hq ⟨h, h2⟩])]
        by_cases hm : may p = true
        · rw [if_pos hm, set_other hqp]
        · rw [if_neg hm]

/-- `$FileDelete` with two names. -/
theorem C83_file_delete_partial {ext a b f t : Text} {ty : Nat} (hi : Args.init W arg = .ok (some [a, b])) (hx : typeOf ext = .ok ty)
    (ha : Path ext a f) (hb : Path ext b t) : ∃ d', run W may junk (.fileDelete ty) arg d = .done d' ∧
      (∀ q, q = f ∨ q = t → may q = true → d' q = none) ∧ ∀ q, q ≠ f → q ≠ t → d' q = d q := by
  refine ⟨removeAll may d [f, t], ?_, fun q h hm => ?_, fun q h1 h2 => ?_⟩
  · show fileDelete W may ty arg d = _
    rw [fileDelete, hi]
    simp only [setExt_path hx ha, setExt_path hx hb]
  · rw [removeAll_get, if_pos ⟨by simpa using h, hm⟩]
  · rw [removeAll_get, if_neg (by rintro ⟨h, _⟩; simp only [List.mem_cons, List.not_mem_nil, or_false] at h; rcases h with h | h; exacts [h1 h, h2 h])]

/-- `$FileDelete` with one name or more than two removes nothing. -/
theorem C83_file_delete_counterexample {ws : List Text} (hi : Args.init W arg = .ok (some ws)) (h : ws.length ≠ 2) (ty : Nat) :
    run W may junk (.fileDelete ty) arg d = .failed d := by
  show fileDelete W may ty arg d = _
  rw [fileDelete, hi]
  match ws, h with
  | [], _ => rfl
  | [_], _ => rfl
  | [_, _], h => exact absurd rfl h
  | _ :: _ :: _ :: _, _ => rfl

/-- `$SysMoveFile`: the new name must be free. -/
theorem C83_move {f t : Text} {c : Bytes} (hw : Expand.words [' '] arg = [f, t]) (hd : d f = some c) (ht : d t = none) (hm : may f = true) (hm' : may t = true) :
    ∃ d', run W may junk .move arg d = .done d' ∧ d' t = some c ∧ d' f = none ∧ ∀ q, q ≠ t → q ≠ f → d' q = d q := by
  have hft : t ≠ f := by rintro rfl; rw [hd] at ht; cases ht
  refine ⟨(d.set t (some c)).set f none, ?_, by rw [set_other hft, set_same], set_same .., fun q h1 h2 => by rw [set_other h2, set_other h1]⟩
  show sysMove may arg d = _
  rw [sysMove, cut_words, hw]
  simp only [hd, ht]
  rw [if_neg (by rw [hm']; simp), if_neg (by rw [hm]; simp)]

/-- Moving a file and moving it back. -/
theorem C83_move_back {arg' f t : Text} {c : Bytes} (hw : Expand.words [' '] arg = [f, t]) (hw' : Expand.words [' '] arg' = [t, f]) (hd : d f = some c)
    (ht : d t = none) (hm : may f = true) (hm' : may t = true) :
    ∃ d', run W may junk .move arg d = .done d' ∧ run W may junk .move arg' d' = .done d := by
  obtain ⟨d1, e1, h1, h2, h3⟩ := C83_move (W := W) (junk := junk) hw hd ht hm hm'
  obtain ⟨d2, e2, h4, h5, h6⟩ := C83_move (W := W) (junk := junk) hw' h1 h2 hm' hm
  refine ⟨d1, e1, e2.trans (congrArg Out.done (funext fun q => ?_))⟩
  by_cases hq : q = f
  · rw [hq, h4, hd]
  · by_cases hq' : q = t
    · rw [hq', h5, ht]
    · rw [h6 q hq hq', h3 q hq' hq]

/-- `$SysMoveFile` does not replace a file. -/
theorem C83_move_taken {f t : Text} {c : Bytes} (hw : Expand.words [' '] arg = [f, t]) (ht : d t = some c) : run W may junk .move arg d = .failed d := by
  show sysMove may arg d = _
  rw [sysMove, cut_words, hw]
  simp only [ht]
  cases d f <;> rfl

/-- `$SysCopyFile`. -/
theorem C83_copy_partial {f t : Text} {c : Bytes} (hw : Expand.words [' '] arg = [f, t]) (hd : d f = some c) (hft : f ≠ t) (hm : may t = true) :
    ∃ d', run W may junk .copy arg d = .done d' ∧ d' t = some c ∧ ∀ q, q ≠ t → d' q = d q := by
  refine ⟨d.set t (some c), ?_, set_same .., fun q hq => set_other hq⟩
  show sysCopy may arg d = _
  rw [sysCopy, cut_words, hw]
  simp only [hd]
  rw [if_neg (by rw [hm]; simp), set_other hft, hd]
  rfl

/-- `$SysCopyFile` of a file onto itself empties it and tells that all went well. -/
theorem C83_copy_itself_counterexample {f : Text} {c : Bytes} (hw : Expand.words [' '] arg = [f, f]) (hd : d f = some c) (hm : may f = true) :
    ∃ d', run W may junk .copy arg d = .done d' ∧ d' f = some [] := by
  refine ⟨d.set f (some []), ?_, set_same ..⟩
  show sysCopy may arg d = _
  rw [sysCopy, cut_words, hw]
  simp only [hd]
  rw [if_neg (by rw [hm]; simp), set_same]
  rfl

/-- `$SysAppendFile`: the file is made when it does not exist. -/
theorem C83_append {f t : Text} {c : Bytes} (hw : Expand.words [' '] arg = [f, t]) (hd : d f = some c) (hft : f ≠ t ∨ c.length < 2048) (hm : may t = true) :
    ∃ d', run W may junk .append arg d = .done d' ∧ d' t = some ((d t).getD [] ++ c) ∧ ∀ q, q ≠ t → d' q = d q := by
  refine ⟨d.set t (some ((d t).getD [] ++ c)), ?_, set_same .., fun q hq => set_other hq⟩
  show sysAppend may arg d = _
  rw [sysAppend, cut_words, hw]
  simp only [hd]
  rw [if_neg (by rw [hm]; simp), if_neg]
  rintro ⟨h1, h2⟩
  rcases hft with h | h
  · exact h h1
  · omega

/-- `$SysDeleteFile` with any number of names: those that do not exist are passed over. -/
theorem C83_delete {ps : List Text} (hw : Expand.words [' '] arg = ps) (hp : ps ≠ []) : ∃ d', run W may junk .delete arg d = .done d' ∧
    (∀ q ∈ ps, may q = true → d' q = none) ∧ ∀ q, q ∉ ps → d' q = d q := by
  refine ⟨removeAll may d ps, ?_, fun q h hm => by rw [removeAll_get, if_pos ⟨h, hm⟩], fun q h => by rw [removeAll_get, if_neg fun h' => h h'.1]⟩
  show sysDelete may arg d = _
  rw [sysDelete, cut_words, hw]
  cases ps with
  | nil => exact absurd rfl hp
  | cons a l => rfl

/-! ## What no command does -/

/-- The state after a command, whether it succeeds or not. -/
inductive Leaves (d' : Disk) : Out Disk → Prop
  | done : Leaves d' (.done d')
  | failed : Leaves d' (.failed d')
  | thrown : Leaves d' (.thrown d')

/-- The files a command may change: `ws` are the words of its argument. -/
def mayChange (c : Cmd) (ws : List Text) : List Text :=
  match c with
  | .fileCopy _ | .copy | .append | .ansiToOem | .oemToAnsi | .ansiToUtf8 | .oemToUtf8 => ws.drop 1
  | .fileRename _ | .fileDelete _ | .move | .delete => ws

/-- The files the words of an argument stand for. -/
inductive Names (W : Args.World) (arg : Text) : Cmd → List Text → Prop
  | file {c ty ext ws fs} : c = .fileCopy ty ∨ c = .fileRename ty ∨ c = .fileDelete ty → typeOf ext = .ok ty → Args.init W arg = .ok (some ws) →
      List.Forall₂ (Path ext) ws fs → Names W arg c fs
  | none {c ty} : c = .fileCopy ty ∨ c = .fileRename ty ∨ c = .fileDelete ty → Args.init W arg = .ok none → Names W arg c []
  | sys {c} : (∀ ty, c ≠ .fileCopy ty ∧ c ≠ .fileRename ty ∧ c ≠ .fileDelete ty) → Names W arg c (Expand.words [' '] arg)

theorem keep_set {d' : Disk} {o : Out Disk} {t q : Text} {c : Option Bytes} (h : Leaves d' o) (ho : o = .done (d.set t c) ∨ o = .failed (d.set t c)) (hq : q ≠ t) :
    d' q = d q := by
  rcases ho with rfl | rfl <;> cases h <;> exact set_other hq

theorem keep_two {d' : Disk} {t u q : Text} {c c' : Option Bytes} (h : Leaves d' (.done ((d.set t c).set u c'))) (hq : q ≠ t) (hq' : q ≠ u) :
    d' q = d q := by
  cases h
  rw [set_other hq', set_other hq]

theorem keep_same {d' : Disk} {o : Out Disk} {q : Text} (h : Leaves d' o) (ho : o = .done d ∨ o = .failed d ∨ o = .thrown d) : d' q = d q := by
  rcases ho with rfl | rfl | rfl <;> cases h <;> rfl

/-- The three commands whose argument is expanded. -/
theorem others_file {c : Cmd} {ty : Nat} {ext : Text} {ws fs : List Text} {d' : Disk} (hc : c = .fileCopy ty ∨ c = .fileRename ty ∨ c = .fileDelete ty)
    (hx : typeOf ext = .ok ty) (hi : Args.init W arg = .ok (some ws)) (hf : List.Forall₂ (Path ext) ws fs) (h : Leaves d' (run W may junk c arg d))
    (q : Text) (hq : q ∉ mayChange c fs) : d' q = d q := by
  by_cases h2 : ws.length = 2
  · match ws, fs, hf, h2 with
    | [a, b], [f, t], .cons ha (.cons hb .nil), _ =>
      rcases hc with rfl | rfl | rfl
      · change Leaves d' (fileCopy W may ty arg d) at h
        have hqt : q ≠ t := by rintro rfl; exact hq (by simp [mayChange])
        rw [fileCopy, hi] at h
        simp only [setExt_path hx ha, setExt_path hx hb] at h
        cases hd : d f with
        | none => rw [hd] at h; exact keep_same h (.inr (.inl rfl))
        | some c =>
          simp only [hd] at h
          by_cases h1 : f = t ∨ may t = false
          · rw [if_pos h1] at h; exact keep_same h (.inr (.inl rfl))
          · rw [if_neg h1] at h
            split at h
            · cases h
            · exact keep_set h (.inl rfl) hqt
      · change Leaves d' (fileRename W may ty arg d) at h
        have hqt : q ≠ t := by rintro rfl; exact hq (by simp [mayChange])
        have hqf : q ≠ f := by rintro rfl; exact hq (by simp [mayChange])
        rw [fileRename, hi] at h
        simp only [setExt_path hx ha, setExt_path hx hb] at h
        cases hd : d f with
        | none => rw [hd] at h; exact keep_same h (.inr (.inl rfl))
        | some c =>
          simp only [hd] at h
          by_cases h1 : f = t
          · rw [if_pos h1] at h; exact keep_same h (.inl rfl)
          · rw [if_neg h1] at h
            split at h
            · exact keep_same h (.inr (.inl rfl))
            · exact keep_two h hqt hqf
      · change Leaves d' (fileDelete W may ty arg d) at h
        rw [fileDelete, hi] at h
        simp only [setExt_path hx ha, setExt_path hx hb] at h
        cases h
        rw [removeAll_get, if_neg fun h' => hq h'.1]
  · have hne : ∀ (F : Text → Text → Out Disk), (match Args.init W arg with
        | .ok (some [a, b]) => F a b
        | .ok _ => .failed d
        | _ => .ub) = .failed d := by
      intro F
      rw [hi]
      match ws, h2 with
      | [], _ => rfl
      | [_], _ => rfl
      | [_, _], h => exact absurd rfl h
      | _ :: _ :: _ :: _, _ => rfl
    rcases hc with rfl | rfl | rfl
    · exact keep_same h (.inr (.inl (hne _)))
    · exact keep_same h (.inr (.inl (hne _)))
    · exact keep_same h (.inr (.inl (hne _)))

/-- Commands with an input and an output file that change the output only. -/
theorem others_sys {d' : Disk} {F : Text → Text → Out Disk} (hF : ∀ f t q, q ≠ t → Leaves d' (F f t) → d' q = d q)
    (h : Leaves d' (match cut arg with | [f, t] => F f t | _ => .failed d)) (q : Text) (hq : q ∉ (Expand.words [' '] arg).drop 1) : d' q = d q := by
  rw [cut_words] at h
  match he : Expand.words [' '] arg, h, hq with
  | [], h, _ => exact keep_same h (.inr (.inl rfl))
  | [_], h, _ => exact keep_same h (.inr (.inl rfl))
  | [f, t], h, hq => exact hF f t q (by rintro rfl; exact hq (by simp)) h
  | _ :: _ :: _ :: _, h, _ => exact keep_same h (.inr (.inl rfl))

theorem keep_convert {d' : Disk} {g : Nat → Nat} (i o q : Text) (hq : q ≠ o)
    (h : Leaves d' (if may o = false then .failed d
      else match d i with
        | none => .failed (d.set o (some []))
        | some _ => .done (d.set o (some ((((d.set o (some [])) i).getD []).map g))))) : d' q = d q := by
  split at h
  · exact keep_same h (.inr (.inl rfl))
  · cases hd : d i with
    | none => simp only [hd] at h; exact keep_set h (.inr rfl) hq
    | some c => simp only [hd] at h; exact keep_set h (.inl rfl) hq

theorem keep_utf8 {d' : Disk} {tbl : List Bytes} (i o q : Text) (hq : q ≠ o)
    (h : Leaves d' (match d i with
      | none => .failed d
      | some _ => if may o = false then .failed d
        else .done (d.set o (some ([239, 187, 191] ++ (((d.set o (some [])) i).getD []).flatMap (utf8Char tbl)))))) : d' q = d q := by
  cases hd : d i with
  | none => simp only [hd] at h; exact keep_same h (.inr (.inl rfl))
  | some c =>
    simp only [hd] at h
    split at h
    · exact keep_same h (.inr (.inl rfl))
    · exact keep_set h (.inl rfl) hq

/-- Whatever happens, the other files are as they were. -/
theorem C83_others {c : Cmd} {ws : List Text} {d' : Disk} (hn : Names W arg c ws) (h : Leaves d' (run W may junk c arg d)) :
    ∀ q, q ∉ mayChange c ws → d' q = d q := by
  intro q hq
  cases hn with
  | file hc hx hi hf => exact others_file hc hx hi hf h q hq
  | none hc hi =>
    rcases hc with rfl | rfl | rfl
    · refine keep_same h (.inr (.inl ?_)); show fileCopy W may _ arg d = _; rw [fileCopy, hi]
    · refine keep_same h (.inr (.inl ?_)); show fileRename W may _ arg d = _; rw [fileRename, hi]
    · refine keep_same h (.inr (.inl ?_)); show fileDelete W may _ arg d = _; rw [fileDelete, hi]
  | sys hc =>
    cases c with
    | fileCopy ty => exact absurd rfl (hc ty).1
    | fileRename ty => exact absurd rfl (hc ty).2.1
    | fileDelete ty => exact absurd rfl (hc ty).2.2
    | move =>
      change Leaves d' (sysMove may arg d) at h
      rw [sysMove, cut_words] at h
      change q ∉ Expand.words [' '] arg at hq
      generalize Expand.words [' '] arg = ws at h hq
      match ws, h, hq with
      | [], h, _ => exact keep_same h (.inr (.inl rfl))
      | [_], h, _ => exact keep_same h (.inr (.inl rfl))
      | [f, t], h, hq =>
        have hqt : q ≠ t := by rintro rfl; exact hq (by simp)
        have hqf : q ≠ f := by rintro rfl; exact hq (by simp)
        cases hd : d f with
        | none => simp only [hd] at h; exact keep_same h (.inr (.inl rfl))
        | some c =>
          cases ht : d t with
          | some _ => simp only [hd, ht] at h; exact keep_same h (.inr (.inl rfl))
          | none =>
            simp only [hd, ht] at h
            by_cases h1 : may t = false
            · rw [if_pos h1] at h; exact keep_same h (.inr (.inl rfl))
            · rw [if_neg h1] at h
              by_cases h2 : may f = false
              · rw [if_pos h2] at h; exact keep_set h (.inr rfl) hqt
              · rw [if_neg h2] at h; exact keep_two h hqt hqf
      | _ :: _ :: _ :: _, h, _ => exact keep_same h (.inr (.inl rfl))
    | delete =>
      change Leaves d' (sysDelete may arg d) at h
      rw [sysDelete, cut_words] at h
      change q ∉ Expand.words [' '] arg at hq
      generalize Expand.words [' '] arg = ws at h hq
      cases ws with
      | nil => exact keep_same h (.inr (.inl rfl))
      | cons a l =>
        cases h
        rw [removeAll_get, if_neg fun h' => hq h'.1]
    | copy =>
      refine others_sys (F := _) (fun f t q hq h => ?_) h q hq
      cases hd : d f with
      | none => simp only [hd] at h; exact keep_same h (.inr (.inl rfl))
      | some c =>
        simp only [hd] at h
        split at h
        · exact keep_same h (.inr (.inl rfl))
        · exact keep_set h (.inl rfl) hq
    | append =>
      refine others_sys (F := _) (fun f t q hq h => ?_) h q hq
      cases hd : d f with
      | none => simp only [hd] at h; exact keep_same h (.inr (.inl rfl))
      | some c =>
        simp only [hd] at h
        split at h
        · exact keep_same h (.inr (.inl rfl))
        · split at h
          · cases h
          · exact keep_set h (.inl rfl) hq
    | ansiToOem => exact others_sys (F := _) (fun f t q hq h => keep_convert f t q hq h) h q hq
    | oemToAnsi => exact others_sys (F := _) (fun f t q hq h => keep_convert f t q hq h) h q hq
    | ansiToUtf8 => exact others_sys (F := _) (fun f t q hq h => keep_utf8 f t q hq h) h q hq
    | oemToUtf8 => exact others_sys (F := _) (fun f t q hq h => keep_utf8 f t q hq h) h q hq

/-- Commands one after the other, whether they succeed or not. -/
inductive Runs (W : Args.World) (may : Text → Bool) (junk : Nat → Nat) : List (Cmd × Text) → Disk → Disk → Prop
  | nil {x : Disk} : Runs W may junk [] x x
  | cons {c : Cmd} {a : Text} {l : List (Cmd × Text)} {x y z : Disk} : Leaves y (run W may junk c a x) → Runs W may junk l y z → Runs W may junk ((c, a) :: l) x z

/-- A file none of the commands of a report may change is the same in the end. -/
theorem C83_sequence {l : List (Cmd × Text)} {d d' : Disk} (h : Runs W may junk l d d') (q : Text)
    (hq : ∀ e ∈ l, ∃ ws, Names W e.2 e.1 ws ∧ q ∉ mayChange e.1 ws) : d' q = d q := by
  induction h with
  | nil => rfl
  | cons h1 _ ih =>
    obtain ⟨ws, hn, hw⟩ := hq _ List.mem_cons_self
    rw [ih fun e he => hq e (List.mem_cons_of_mem _ he), C83_others hn h1 q hw]

/-- A command that does not succeed changes nothing, but for those that convert files between ANSI and OEM, and a file that is moved and cannot be removed. -/
theorem C83_failed_partial {c : Cmd} {d' : Disk} (h : run W may junk c arg d = .failed d' ∨ run W may junk c arg d = .thrown d') (h1 : c ≠ .ansiToOem)
    (h2 : c ≠ .oemToAnsi) (h3 : c = .move → ∀ q, may q = true) : d' = d := by
  have two : ∀ (F : Text → Text → Out Disk), (∀ f t, (F f t = .failed d' ∨ F f t = .thrown d') → d' = d) →
      ((match cut arg with | [f, t] => F f t | _ => .failed d) = .failed d' ∨ (match cut arg with | [f, t] => F f t | _ => .failed d) = .thrown d') → d' = d := by
    intro F hF h
    match cut arg, h with
    | [], h => rcases h with h | h <;> cases h; rfl
    | [_], h => rcases h with h | h <;> cases h; rfl
    | [f, t], h => exact hF f t h
    | _ :: _ :: _ :: _, h => rcases h with h | h <;> cases h; rfl
  have three : ∀ (F : Text → Text → Out Disk), (∀ f t, (F f t = .failed d' ∨ F f t = .thrown d') → d' = d) →
      ((match Args.init W arg with | .ok (some [a, b]) => F a b | .ok _ => .failed d | _ => .ub) = .failed d' ∨
        (match Args.init W arg with | .ok (some [a, b]) => F a b | .ok _ => .failed d | _ => .ub) = .thrown d') → d' = d := by
    intro F hF h
    match Args.init W arg, h with
    | .ok none, h => rcases h with h | h <;> cases h; rfl
    | .ok (some []), h => rcases h with h | h <;> cases h; rfl
    | .ok (some [_]), h => rcases h with h | h <;> cases h; rfl
    | .ok (some [f, t]), h => exact hF f t h
    | .ok (some (_ :: _ :: _ :: _)), h => rcases h with h | h <;> cases h; rfl
    | .err, h => rcases h with h | h <;> cases h
    | .ub, h => rcases h with h | h <;> cases h
  cases c with
  | fileCopy ty =>
    refine three _ (fun a b h => ?_) h
    cases ha : setExt ty a <;> cases hb : setExt ty b <;> simp only [ha, hb] at h
    · rcases h with h | h <;> cases h; rfl
    · rcases h with h | h <;> cases h; rfl
    · rcases h with h | h <;> cases h; rfl
    · rename_i f t
      cases hd : d f with
      | none => simp only [hd] at h; rcases h with h | h <;> cases h; rfl
      | some c =>
        simp only [hd] at h
        split at h
        · rcases h with h | h <;> cases h; rfl
        · split at h <;> rcases h with h | h <;> cases h
  | fileRename ty =>
    refine three _ (fun a b h => ?_) h
    cases ha : setExt ty a <;> cases hb : setExt ty b <;> simp only [ha, hb] at h
    · rcases h with h | h <;> cases h; rfl
    · rcases h with h | h <;> cases h; rfl
    · rcases h with h | h <;> cases h; rfl
    · rename_i f t
      cases hd : d f with
      | none => simp only [hd] at h; rcases h with h | h <;> cases h; rfl
      | some c =>
        simp only [hd] at h
        split at h
        · rcases h with h | h <;> cases h
        · split at h
          · rcases h with h | h <;> cases h; rfl
          · rcases h with h | h <;> cases h
  | fileDelete ty =>
    refine three _ (fun a b h => ?_) h
    cases ha : setExt ty a <;> cases hb : setExt ty b <;> simp only [ha, hb] at h <;> rcases h with h | h <;> cases h <;> rfl
  | move =>
    refine two _ (fun f t h => ?_) h
    cases hd : d f <;> cases ht : d t <;> simp only [hd, ht] at h
    · rcases h with h | h <;> cases h; rfl
    · rcases h with h | h <;> cases h; rfl
    · rw [if_neg (by rw [h3 rfl]; simp), if_neg (by rw [h3 rfl]; simp)] at h
      rcases h with h | h <;> cases h
    · rcases h with h | h <;> cases h; rfl
  | copy =>
    refine two _ (fun f t h => ?_) h
    cases hd : d f <;> simp only [hd] at h
    · rcases h with h | h <;> cases h; rfl
    · split at h <;> rcases h with h | h <;> cases h; rfl
  | append =>
    refine two _ (fun f t h => ?_) h
    cases hd : d f <;> simp only [hd] at h
    · rcases h with h | h <;> cases h; rfl
    · split at h
      · rcases h with h | h <;> cases h; rfl
      · split at h <;> rcases h with h | h <;> cases h
  | delete =>
    change sysDelete may arg d = _ ∨ sysDelete may arg d = _ at h
    rw [sysDelete] at h
    cases hc : cut arg <;> simp only [hc] at h <;> rcases h with h | h <;> cases h; rfl
  | ansiToOem => exact absurd rfl h1
  | oemToAnsi => exact absurd rfl h2
  | ansiToUtf8 =>
    refine two _ (fun f t h => ?_) h
    cases hd : d f <;> simp only [hd] at h
    · rcases h with h | h <;> cases h; rfl
    · split at h <;> rcases h with h | h <;> cases h; rfl
  | oemToUtf8 =>
    refine two _ (fun f t h => ?_) h
    cases hd : d f <;> simp only [hd] at h
    · rcases h with h | h <;> cases h; rfl
    · split at h <;> rcases h with h | h <;> cases h; rfl

/-- A file that should be converted and does not exist: the output file is empty afterwards, whatever it was. -/
theorem C83_failed_counterexample {i o : Text} (hw : Expand.words [' '] arg = [i, o]) (hd : d i = none) (hm : may o = true) {c : Cmd}
    (hc : c = .ansiToOem ∨ c = .oemToAnsi) : ∃ d', run W may junk c arg d = .failed d' ∧ d' o = some [] := by
  refine ⟨d.set o (some []), ?_, set_same ..⟩
  rcases hc with rfl | rfl
  · show sysConvert may _ arg d = _
    rw [sysConvert, cut_words, hw]
    simp only [hd]
    rw [if_neg (by rw [hm]; simp)]
  · show sysConvert may _ arg d = _
    rw [sysConvert, cut_words, hw]
    simp only [hd]
    rw [if_neg (by rw [hm]; simp)]

/-- The name of a command that ends with no known extension: the search does not end at the table. -/
theorem C83_suffix_undefined {s : Text} (h : s ∉ exts) : typeOf s = .ub := by
  rw [typeOf, List.findIdx?_eq_none_iff.2 (by simpa using fun x hx (he : x = s) => h (he ▸ hx))]

/-! ## Examples -/

/-- Separators, no lists, no files with arguments. -/
def exWorld : Args.World := ⟨[' ', ',', '\n', '\t', ';'], fun _ => none, fun _ => none⟩

/-- A report, a database and another file. -/
def exDisk : Disk := fun p =>
  if p = "a.rep".toList then some [1, 2] else if p = "m.var".toList then some ([75, 79, 66, 74, 83, 32, 53, 54, 52, 65, 26] ++ [0, 1])
  else if p = "x".toList then some [3] else none

theorem ex_init : Args.init exWorld "a b".toList = .ok (some [['a'], ['b']]) := by decide +kernel

theorem no_ext {c : Char} : ¬ HasExt [c] := by
  rintro ⟨dir, n, e, h, hn, -⟩
  have hl := congrArg List.length h
  have := List.length_pos_iff.mpr hn
  simp at hl
  omega

theorem ex_path {c : Char} {ext : Text} : Path ext [c] (c :: '.' :: ext) := .usual (by simp) (by simp) no_ext

/-- `$FileCopyRep a b`. -/
example : ∃ d', run exWorld (fun _ => true) id (.fileCopy 16) "a b".toList exDisk = .done d' ∧ d' ['b', '.', 'r', 'e', 'p'] = some [1, 2] ∧
    ∀ q, q ≠ ['b', '.', 'r', 'e', 'p'] → d' q = exDisk q :=
  C83_file_copy_partial (ext := ['r', 'e', 'p']) ex_init (by decide +kernel) ex_path ex_path (by decide +kernel) (by decide) rfl (.inl (by decide))

/-- `$FileRenameRep a b` and `$FileDeleteRep a b`. -/
example : ∃ d', run exWorld (fun _ => true) id (.fileRename 16) "a b".toList exDisk = .done d' ∧ d' ['b', '.', 'r', 'e', 'p'] = some [1, 2] ∧
    (['a', '.', 'r', 'e', 'p'] ≠ ['b', '.', 'r', 'e', 'p'] → d' ['a', '.', 'r', 'e', 'p'] = none) ∧ ∀ q, q ≠ ['b', '.', 'r', 'e', 'p'] → q ≠ ['a', '.', 'r', 'e', 'p'] → d' q = exDisk q :=
  C83_file_rename (ext := ['r', 'e', 'p']) ex_init (by decide +kernel) ex_path ex_path (by decide +kernel) rfl rfl

example : ∃ d', run exWorld (fun _ => true) id (.fileDelete 16) "a b".toList exDisk = .done d' ∧
    (∀ q, q = ['a', '.', 'r', 'e', 'p'] ∨ q = ['b', '.', 'r', 'e', 'p'] → true = true → d' q = none) ∧
      ∀ q, q ≠ ['a', '.', 'r', 'e', 'p'] → q ≠ ['b', '.', 'r', 'e', 'p'] → d' q = exDisk q :=
  C83_file_delete_partial (ext := ['r', 'e', 'p']) ex_init (by decide +kernel) ex_path ex_path

/-- `$FileCopyVar m n`. -/
example : run exWorld (fun _ => true) id (.fileCopy 6) "m n".toList exDisk = .ub :=
  C83_database_undefined (a := ['m']) (b := ['n']) (ext := ['v', 'a', 'r']) (c := [75, 79, 66, 74, 83, 32, 53, 54, 52, 65, 26, 0, 1]) (by decide +kernel) (by decide +kernel) ex_path
    ex_path (by decide +kernel) (by decide) rfl (by decide) ⟨_, [0, 1], by decide, by decide +kernel, .inl rfl⟩

/-- `$FileDeleteRep a`. -/
example : run exWorld (fun _ => true) id (.fileDelete 16) ['a'] exDisk = .failed exDisk :=
  C83_file_delete_counterexample (ws := [['a']]) (by decide +kernel) (by decide) 16

/-- `$SysMoveFile x y`, and back. -/
example : ∃ d', run exWorld (fun _ => true) id .move "x y".toList exDisk = .done d' ∧ run exWorld (fun _ => true) id .move "y  x".toList d' = .done exDisk :=
  C83_move_back (f := ['x']) (t := ['y']) (c := [3]) (by decide +kernel) (by decide +kernel) (by decide +kernel) (by decide +kernel) rfl rfl

/-- `$SysMoveFile x a.rep`, `$SysCopyFile a.rep x`, `$SysCopyFile x x`, `$SysAppendFile a.rep x`, `$SysDeleteFile a.rep nothing x`. -/
example : run exWorld (fun _ => true) id .move "x a.rep".toList exDisk = .failed exDisk :=
  C83_move_taken (f := ['x']) (t := "a.rep".toList) (c := [1, 2]) (by decide +kernel) (by decide +kernel)

example : ∃ d', run exWorld (fun _ => true) id .copy "a.rep x".toList exDisk = .done d' ∧ d' ['x'] = some [1, 2] ∧ ∀ q, q ≠ ['x'] → d' q = exDisk q :=
  C83_copy_partial (f := "a.rep".toList) (by decide +kernel) (by decide +kernel) (by decide) rfl

example : ∃ d', run exWorld (fun _ => true) id .copy "x x".toList exDisk = .done d' ∧ d' ['x'] = some [] :=
  C83_copy_itself_counterexample (c := [3]) (by decide +kernel) (by decide +kernel) rfl

example : ∃ d', run exWorld (fun _ => true) id .append "a.rep x".toList exDisk = .done d' ∧ d' ['x'] = some ((exDisk ['x']).getD [] ++ [1, 2]) ∧
    ∀ q, q ≠ ['x'] → d' q = exDisk q :=
  C83_append (f := "a.rep".toList) (by decide +kernel) (by decide +kernel) (.inl (by decide)) rfl

example : ∃ d', run exWorld (fun _ => true) id .delete "a.rep nothing x".toList exDisk = .done d' ∧
    (∀ q ∈ ["a.rep".toList, "nothing".toList, ['x']], true = true → d' q = none) ∧ ∀ q, q ∉ ["a.rep".toList, "nothing".toList, ['x']] → d' q = exDisk q :=
  C83_delete (by decide +kernel) (by simp)

/-- `$SysAnsiToOem nothing x`. -/
example : ∃ d', run exWorld (fun _ => true) id .ansiToOem "nothing x".toList exDisk = .failed d' ∧ d' ['x'] = some [] :=
  C83_failed_counterexample (i := "nothing".toList) (by decide +kernel) (by decide +kernel) rfl (.inl rfl)

/-- `$SysCopyFile nothing x`. -/
example : ∃ d', run exWorld (fun _ => true) id .copy "nothing x".toList exDisk = .failed d' ∧ d' = exDisk :=
  have h : run exWorld (fun _ => true) id .copy "nothing x".toList exDisk = .failed exDisk := by
    show sysCopy (fun _ => true) "nothing x".toList exDisk = .failed exDisk
    rw [sysCopy, show cut "nothing x".toList = ["nothing".toList, ['x']] by decide +kernel]
    simp only [show exDisk "nothing".toList = none by decide +kernel]
  ⟨exDisk, h, C83_failed_partial (.inl h) (by decide) (by decide) (by intro h; cases h)⟩

/-- The database is the same after `$SysCopyFile a.rep x` and `$FileDeleteRep a b`. -/
example {d' : Disk} (h : Runs exWorld (fun _ => true) id [(.copy, "a.rep x".toList), (.fileDelete 16, "a b".toList)] exDisk d') :
    d' "m.var".toList = exDisk "m.var".toList :=
  C83_sequence h _ (by
    simp only [List.forall_mem_cons]
    refine ⟨⟨_, .sys fun ty => by simp, by decide +kernel⟩, ⟨_, .file (ext := ['r', 'e', 'p']) (.inr (.inr rfl)) (by decide +kernel) ex_init
      (.cons ex_path (.cons ex_path .nil)), by decide +kernel⟩, by simp⟩)

/-- `$FileCopyFoo a b`, and `$FileCopy a b`, which looks for `a.`. -/
example : typeOf "foo".toList = .ub := C83_suffix_undefined (by decide +kernel)
example : typeOf [] = .ok 15 ∧ setExt 15 ['a'] = some ['a', '.'] := by decide +kernel

end Iode.FileCmd
