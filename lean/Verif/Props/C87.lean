import Verif.Model.WsCmd
import Verif.Props.C12
import Verif.Props.C13
import Verif.Props.C15
import Verif.Props.C74

/-!
# C87: the commands on the workspace of variables do what their arguments say
-/
namespace Iode.WsCmd

open Iode.Args (Text Single Ordinary Fit pieces Usual)
open Iode.DataCmd (Out left)
open Iode.DataCmd.Written
open Iode.VWorld

/-- The text is these words, with separators between them: no word is quoted, or stands for a list or a file. -/
def Words (arg : Text) (ws : List Text) : Prop := '"' ∉ arg ∧ pieces Args.seps arg = ws ∧ ∀ w ∈ ws, Ordinary w ∧ w.length ≤ 128

theorem init_words {W : Args.World} (hW : W.sp = Args.seps) {arg : Text} {ws : List Text} (h : Words arg ws) : Args.init W arg = .ok (some ws) := by
  obtain ⟨h1, rfl, h3⟩ := h
  rw [← hW]
  refine Args.C64_arguments (by rw [hW]; exact LstCalc.usual_seps) ⟨h1, ?_⟩ (LstCalc.means_plain W 10 ?_)
  · rw [hW]; exact fun w hw => (h3 w hw).2
  · rw [hW]; exact fun w hw => (h3 w hw).1

/-! ## `$WsSample` -/

/-- The workspace can take the sample: it has it already, or it is no subset and the sample has a period of the old one. -/
def Takes {α : Type} (v : VWorld α) (i : Nat) (s : Sample) : Prop :=
  v.smp i = some s ∨ (v.w.dbs i).kind ≠ .subset ∧ ∀ old, v.smp i = some old → ∃ q, old.Contains q ∧ s.Contains q

/-- C87. `$WsSample from to` gives the workspace that sample; the variables are the same, each keeps its values in the periods of both samples and is NA in the new ones.  If the
workspace cannot take the sample the command fails and nothing changes.  Missing: irregular histories (C11) and samples of more than 32767 periods (C12). -/
theorem C87_sample_partial {α : Type} {W : Args.World} (hW : W.sp = Args.seps) (na : α) (ops : List (VOp α)) (hr : Regular na VWorld.init ops) (i : Nat)
    {arg a b : Text} (hw : Words arg [a, b]) {s : Sample} (hs : Sample.ofStrings a b = .ok s) (hf : s.Fair) :
    let v := (VWorld.init : VWorld α).run na ops
    (Takes v i s → ∃ v', sample W na v i arg = .done v' ∧ v'.smp i = some s ∧
      (∀ name, v'.look i name = none ↔ v.look i name = none) ∧
      (∀ name q, v.look i name ≠ none → s.Contains q → v'.valueAt i name q = some ((v.valueAt i name q).getD na)) ∧
      (∀ j, j ≠ i → j ∉ (v.w.dbs i).children → v'.smp j = v.smp j ∧ ∀ name, v'.look j name = v.look j name)) ∧
    (¬ Takes v i s → sample W na v i arg = .failed v) := by
  have h1 := C12_set_sample_partial na ops hr i s hf
  have h2 := C12_when_partial na ops hr i s hf
  have hn := hf.nb_pos
  simp only at h1 h2 ⊢
  generalize (VWorld.init : VWorld α).run na ops = v at *
  have hc : sample W na v i arg = match v.setSample na i s with
        | (v', .ok true) => .done v'
        | (v', .ok false) => .failed v'
        | (v', .err) => .failed v'
        | (_, .ub) => .ub := by
    unfold sample
    rw [init_words hW hw]
    simp only [hs]
    rw [if_neg (by omega)]
    generalize v.setSample na i s = o
    obtain ⟨v', r⟩ := o
    match r with
    | .ok true => rfl
    | .ok false => rfl
    | .err => rfl
    | .ub => rfl
  rw [hc]
  generalize v.setSample na i s = o at *
  obtain ⟨v', r⟩ := o
  simp only at h1 h2 ⊢
  constructor
  · intro ht
    have hr := h2.mpr ht
    subst hr
    exact ⟨v', rfl, h1.2 rfl⟩
  · intro ht
    have hr : r ≠ .ok true := fun e => ht (h2.mp e)
    obtain ⟨rfl, rfl⟩ := h1.1 hr
    rfl

/-- Arguments that are not two, and texts that are no sample, are refused: nothing changes. -/
theorem C87_sample_refused {α : Type} {W : Args.World} (hW : W.sp = Args.seps) (na : α) (v : VWorld α) (i : Nat) {arg : Text} {ws : List Text} (hw : Words arg ws)
    (h : ws.length ≠ 2 ∨ ∃ a b, ws = [a, b] ∧ Sample.ofStrings a b = .err) : sample W na v i arg = .failed v := by
  unfold sample
  rw [init_words hW hw]
  rcases h with h | ⟨a, b, rfl, h⟩
  · match ws, h with
    | [], _ => rfl
    | [_], _ => rfl
    | [_, _], h => exact absurd rfl h
    | _ :: _ :: _ :: _, _ => rfl
  · simp only [h]

/-! ## `$WsExtrapolate` -/

/-- The method a digit stands for. -/
def Method (d : Char) (m : InitMethod) : Prop :=
  (d, m) ∈ [('0', InitMethod.tm1), ('1', .tm1A), ('2', .extra), ('3', .extraA), ('4', .asis), ('5', .tm1NA), ('6', .extraNA)]

/-- What the words ask for: `method from to names`, or `from to names` for the method 0.  A year is not written with three zeros in front. -/
inductive Asked : List Text → InitMethod → Sample → List Text → Prop
  | method {d : Char} {m : InitMethod} {a b : Text} {s : Sample} (names : List Text) : Method d m → Sample.ofStrings a b = .ok s → Asked ([d] :: a :: b :: names) m s names
  | none {a b : Text} {s : Sample} (names : List Text) : ¬ ['0', '0', '0'] <+: a → Sample.ofStrings a b = .ok s → Asked (a :: b :: names) .tm1 s names

theorem digit_bounds {c : Char} (h : isDigitC c = true) : 48 ≤ c.toNat ∧ c.toNat ≤ 57 := by
  unfold isDigitC at h
  simpa using h

theorem digit_of_zero {c : Char} (h : isDigitC c = true) (h0 : digitOf c = 0) : c = '0' := by
  have := digit_bounds h
  unfold digitOf at h0
  have e : c.toNat = '0'.toNat := by
    have : '0'.toNat = 48 := rfl
    omega
  exact Char.toNat_inj.mp e

theorem not_digit_per {c : Char} {n : Int} (h : nbPeriodsPerYear (toUpperC c) = .ok n) : isDigitC c = false := by
  cases hc : isDigitC c
  · rfl
  · exfalso
    have hb := digit_bounds hc
    have hl : ∀ k : Nat, 48 ≤ k → k ≤ 57 → ∀ m, nbPeriodsPerYear (toUpperC (Char.ofNat k)) ≠ .ok m := by
      intro k h1 h2 m
      have : k = 48 ∨ k = 49 ∨ k = 50 ∨ k = 51 ∨ k = 52 ∨ k = 53 ∨ k = 54 ∨ k = 55 ∨ k = 56 ∨ k = 57 := by omega
      rcases this with rfl | rfl | rfl | rfl | rfl | rfl | rfl | rfl | rfl | rfl <;> intro e <;> cases e
    have := hl c.toNat hb.1 hb.2 n
    rw [Char.ofNat_toNat] at this
    exact this h

/-- The number `atoi` reads from a period. -/
theorem atoi_period {a : Text} {p : Period} (h : Period.parse a = .ok p) (hz : ¬ ['0', '0', '0'] <+: a) : ∃ k, Report.atoi a = some k ∧ 7 ≤ k := by
  unfold Period.parse at h
  split at h
  · cases h
  split at h
  · cases h
  rename_i h0 h1
  match a, h0 with
  | [], h0 => exact absurd rfl h0
  | [c], _ => simp [Period.charAt] at h1; exact absurd h1.2 (by decide)
  | [c, d], _ => simp [Period.charAt] at h1; exact absurd h1.2 (by decide)
  | [c, d, e], _ => simp [Period.charAt] at h1; exact absurd h1.2 (by decide)
  | c :: d :: e :: f :: r, _ =>
    simp only [Period.charAt, List.getD_cons_zero, List.getD_cons_succ, Bool.not_eq_true', Bool.not_eq_false, Bool.and_eq_true] at h1
    obtain ⟨⟨⟨d1, d2⟩, d3⟩, d4⟩ := h1
    have hr : r.takeWhile isDigitC = [] := by
      cases r with
      | nil => rfl
      | cons g r =>
        cases hg : nbPeriodsPerYear (toUpperC g) with
        | ok n => rw [List.takeWhile_cons_of_neg]; simp [not_digit_per hg]
        | _ => simp [Period.charAt, hg, bind, Res.bind] at h
    have b1 := digit_bounds d1
    have hsp : Report.isSpace c = false := by
      unfold Report.isSpace
      have : c ≠ ' ' ∧ c ≠ '\t' ∧ c ≠ '\n' ∧ c ≠ '\r' := by
        refine ⟨?_, ?_, ?_, ?_⟩ <;> rintro rfl <;> revert d1 <;> decide
      simp [this]
      omega
    have ht : (c :: d :: e :: f :: r).takeWhile isDigitC = [c, d, e, f] := by
      simp [d1, d2, d3, d4, hr]
    have hv : digitsVal 0 [c, d, e, f] = 1000 * digitOf c + 100 * digitOf d + 10 * digitOf e + digitOf f := by
      simp [digitsVal]; omega
    have u1 : digitOf c ≤ 9 ∧ digitOf d ≤ 9 ∧ digitOf e ≤ 9 ∧ digitOf f ≤ 9 := by
      have := digit_bounds d2
      have := digit_bounds d3
      have := digit_bounds d4
      unfold digitOf
      omega
    have hz' : ¬ (digitOf c = 0 ∧ digitOf d = 0 ∧ digitOf e = 0) := by
      rintro ⟨z1, z2, z3⟩
      have e1 := digit_of_zero d1 z1
      have e2 := digit_of_zero d2 z2
      have e3 := digit_of_zero d3 z3
      subst e1 e2 e3
      exact hz ⟨f :: r, rfl⟩
    refine ⟨((1000 * digitOf c + 100 * digitOf d + 10 * digitOf e + digitOf f : Nat) : Int), ?_, ?_⟩
    · unfold Report.atoi
      rw [List.dropWhile_cons_of_neg (by simp [hsp])]
      have n1 : c ≠ '-' := by rintro rfl; revert d1; decide
      have n2 : c ≠ '+' := by rintro rfl; revert d1; decide
      simp only []
      split
      · rename_i hh; simp at hh; exact absurd hh.1 n1
      · rename_i hh; simp at hh; exact absurd hh.1 n2
      · rename_i hh _ _ ; rw [ht, hv, if_pos (by omega)]
    · omega

/-- The words are read as they are meant. -/
theorem args_asked {ws : List Text} {m : InitMethod} {s : Sample} {names : List Text} (h : Asked ws m s names) (hf : s.Fair) :
    extrapolateArgs ws = .ok (some (m, s, if names = [] then ['*'] else commas names)) := by
  have hn := hf.nb_pos
  cases h with
  | method names hm hs =>
    rename_i d a b
    unfold extrapolateArgs
    rw [if_neg (by simp)]
    have : ∃ k, Report.atoi [d] = some k ∧ methodOf k = some m := by
      unfold Method at hm
      simp only [List.mem_cons, Prod.mk.injEq, List.not_mem_nil, or_false] at hm
      rcases hm with ⟨rfl, rfl⟩ | ⟨rfl, rfl⟩ | ⟨rfl, rfl⟩ | ⟨rfl, rfl⟩ | ⟨rfl, rfl⟩ | ⟨rfl, rfl⟩ | ⟨rfl, rfl⟩ <;> exact ⟨_, rfl, by decide⟩
    obtain ⟨k, e1, e2⟩ := this
    simp only [List.headD_cons, e1, e2, Option.isSome_some, if_true, List.drop_succ_cons, List.drop_zero, hs, Option.getD_some]
    rw [if_neg (by omega)]
  | none names hz hs =>
    rename_i a b
    have hp : ∃ p, Period.parse a = .ok p := by
      unfold Sample.ofStrings at hs
      cases hp : Period.parse a with
      | ok p => exact ⟨p, rfl⟩
      | _ => simp [hp, bind, Res.bind] at hs
    obtain ⟨p, hp⟩ := hp
    obtain ⟨k, e1, e2⟩ := atoi_period hp hz
    have e3 : methodOf k = Option.none := by
      unfold methodOf
      rw [if_neg (by omega), List.getElem?_eq_none_iff]
      simp only [List.length_cons, List.length_nil]
      omega
    unfold extrapolateArgs
    rw [if_neg (by simp)]
    simp only [List.headD_cons, e1, e3, Option.isSome_none, Bool.false_eq_true, if_false, List.drop_zero, hs, Option.getD_none]
    rw [if_neg (by omega)]

theorem commas_eq : ∀ (f : Text) (fs : List Text), commas (f :: fs) = f ++ fs.flatMap fun c => ',' :: c
  | f, [] => by simp [commas]
  | f, g :: fs => by
    rw [commas, commas_eq g fs]
    · simp
    · simp

/-- The variables that names select; no name at all selects all of them. -/
def Sel (keys : List Name) (names : List Text) (k : Name) : Prop := k ∈ keys ∧ (names = [] ∨ ∃ n ∈ names, toKey .variables n = k)

theorem filter_names {W : Args.World} (hW : W.sp = Args.seps) (keys : List Name) {names : List Text} (hn : ∀ w ∈ names, Typed .variables w) (hnd : keys.Nodup) (hk : keys ≠ []) :
    ∃ ks : List Name, ks.Nodup ∧ (∀ k, k ∈ ks ↔ Sel keys names k) ∧
      filterNames W keys (if names = [] then ['*'] else commas names) = if ks = [] then .err else .ok ks := by
  cases names with
  | nil => exact ⟨keys, hnd, by simp [Sel], by simp [filterNames, hk]⟩
  | cons f fs =>
    have hs : ∀ w ∈ f :: fs, Single Args.seps w := fun w hw => (DataCmd.typed_word (hn w hw)).1
    have hp : pieces Args.seps (commas (f :: fs)) = f :: fs := by
      rw [commas_eq]
      exact LstCalc.pieces_sep (by decide) hs
    refine ⟨keys.filter fun k => (f :: fs).any fun n => toKey .variables n == k, hnd.filter _, ?_, ?_⟩
    · intro k
      simp [Sel]
    · have h0 : f ≠ [] := (hs f (by simp)).1
      have hc0 : commas (f :: fs) ≠ [] := by rw [commas_eq]; simp [h0]
      have hc1 : commas (f :: fs) ≠ ['*'] := by
        intro e
        rw [e] at hp
        have e2 : f = ['*'] := by
          have : pieces Args.seps ['*'] = [['*']] := by decide +kernel
          rw [this] at hp
          simp at hp
          exact hp.1.symm
        have := hn f (by simp)
        rw [e2] at this
        exact absurd this.2 (by decide)
      obtain ⟨t1, t2⟩ := DataCmd.filter_trim (sp := Args.seps) (arg := commas (f :: fs)) (ty := .variables) (by rw [hp]; exact hn)
      obtain ⟨r1, r2⟩ := LstCalc.join_read hs
      have hj : Lists.join (f :: fs) ≠ [] := by
        intro e
        rw [e, Args.pieces_nil] at r2
        simp at r2
      rw [if_neg (by simp)]
      unfold filterNames
      rw [if_neg hc0, if_neg hc1, hW, DataCmd.expand_names _ _ _ t1, t2, hp]
      simp only []
      rw [if_neg hj, DataCmd.init_names hW r1.1 (ty := .variables) (by rw [r2]; exact hn), r2]
      simp only [Option.getD_some]

/-- C87. `$WsExtrapolate [method] from to [names]` fails, and changes nothing, when the sample is not inside that of the workspace or when there is no variable with one of the names;
otherwise each of these variables (all, when no name is given) keeps its values outside the sample and follows the method inside, and no other changes.  Missing: irregular
histories (C11); patterns as names (C23). -/
theorem C87_extrapolate_partial {F : Type} [Field F] (isZero : F → Bool) {W : Args.World} (hW : W.sp = Args.seps) (ops : List (VOp (Option F)))
    (hr : Regular none VWorld.init ops) (i : Nat) {own : Sample} (hown : ((VWorld.init : VWorld (Option F)).run none ops).smp i = some own)
    (hne : (((VWorld.init : VWorld (Option F)).run none ops).w.dbs i).objs ≠ []) {arg : Text} {ws names : List Text} (hw : Words arg ws) {m : InitMethod} {s : Sample}
    (ha : Asked ws m s names) (hf : s.Fair) (hn : ∀ w ∈ names, Typed .variables w) :
    let v := (VWorld.init : VWorld (Option F)).run none ops
    let sel := Sel (v.w.dbs i).objs.keys names
    ((¬ s.Inside own ∨ ∀ k, ¬ sel k) → extrapolate isZero W v i arg = .failed v) ∧
    (s.Inside own → (∃ k, sel k) → ∃ v', extrapolate isZero W v i arg = .done v' ∧ v'.smp = v.smp ∧
      (∀ j name, v.w.topOf j ≠ v.w.topOf i ∨ ¬ sel (toKey .variables name) → v'.look j name = v.look j name) ∧
      (∀ name q, own.Contains q → ¬ s.Contains q → v'.valueAt i name q = v.valueAt i name q) ∧
      ∃ bt : Nat, s.start.difference own.start = .ok (bt : Int) ∧
        ∀ name x, sel (toKey .variables name) → v.look i name = some x → ∃ y, v'.look i name = some y ∧ Extrapolated isZero m bt s.nb.toNat x y) := by
  have hinv := Inv.run ops (Inv.init (α := Option F)) hr
  have hnd : (((VWorld.init : VWorld (Option F)).run none ops).w.dbs i).objs.keys.Nodup := keys_nodup (hinv.base.sorted i)
  obtain ⟨ks, k1, k2, k3⟩ := filter_names hW _ hn hnd (by
    intro e
    apply hne
    unfold SMap.keys at e
    simpa using e)
  have hc := C15_extrapolate_partial isZero m ops hr i own s hf hown hne ks k1 fun k hk => ((k2 k).mp hk).1
  have hc0 := C15_extrapolate_partial isZero m ops hr i own s hf hown hne [] (by simp) (by simp)
  simp only at hc hc0 ⊢
  generalize (VWorld.init : VWorld (Option F)).run none ops = v at *
  have he : extrapolate isZero W v i arg = if ks = [] then .failed v else
      match v.extrapolate isZero m i s ks with
        | (v', .ok true) => .done v'
        | (_, .ub) => .ub
        | (v', _) => .failed v' := by
    unfold extrapolate
    rw [init_words hW hw]
    simp only [Option.getD_some, args_asked ha hf, k3]
    by_cases hk : ks = []
    · rw [if_pos hk, if_pos hk]
      simp only []
      by_cases hin : s.Inside own
      · have := (hc0.2 hin).1
        generalize v.extrapolate isZero m i s [] = o at *
        obtain ⟨v', r⟩ := o
        simp only at this
        subst this
        rfl
      · rw [hc0.1 hin]
    · rw [if_neg hk, if_neg hk]
      simp only []
      generalize v.extrapolate isZero m i s ks = o
      obtain ⟨v', r⟩ := o
      match r with
      | .ok true => rfl
      | .ok false => rfl
      | .err => rfl
      | .ub => rfl
  rw [he]
  constructor
  · rintro (h | h)
    · rw [hc.1 h]
      split <;> rfl
    · rw [if_pos]
      refine List.eq_nil_iff_forall_not_mem.mpr fun k hk => h k ((k2 k).mp hk)
  · rintro hin ⟨k, hk⟩
    rw [if_neg (List.ne_nil_of_mem ((k2 k).mpr hk))]
    obtain ⟨g1, g2, g3, g4, bt, g5, g6⟩ := hc.2 hin
    generalize v.extrapolate isZero m i s ks = o at *
    obtain ⟨v', r⟩ := o
    simp only at g1 g2 g3 g4 g6 ⊢
    subst g1
    refine ⟨v', rfl, g2, fun j name h => g3 j name (h.imp_right fun h hm => h ((k2 _).mp hm)), g4, bt, g5, fun name x h => g6 name x ((k2 _).mpr h)⟩

/-- With a method and one period there is no second period to read. -/
theorem C87_one_period_undefined {d : Char} {m : InitMethod} (hm : Method d m) (a : Text) : extrapolateArgs [[d], a] = .ub := by
  unfold Method at hm
  simp only [List.mem_cons, Prod.mk.injEq, List.not_mem_nil, or_false] at hm
  rcases hm with ⟨rfl, rfl⟩ | ⟨rfl, rfl⟩ | ⟨rfl, rfl⟩ | ⟨rfl, rfl⟩ | ⟨rfl, rfl⟩ | ⟨rfl, rfl⟩ | ⟨rfl, rfl⟩ <;> rfl

/-- `0005Y1` is 2005 as a period, and the method 5 in front of `from to`: the sample is another one, or there is none. -/
theorem C87_short_year_counterexample : Sample.ofStrings "0005Y1".toList "2010Y1".toList = .ok ⟨⟨2005, 1, 'Y'⟩, ⟨2010, 1, 'Y'⟩, 6⟩ ∧
    extrapolateArgs ["0005Y1".toList, "2010Y1".toList] = .ub ∧ extrapolateArgs ["0005Y1".toList, "2010Y1".toList, "A".toList] = .ok none := by decide +kernel

/-! ## Arguments of `$WsCopyVar` -/

/-- A text without white space at its ends. -/
def Tight (t : Text) : Prop := t ≠ [] ∧ (∀ c ∈ t.head?, isTrimC c = false) ∧ ∀ c ∈ t.getLast?, isTrimC c = false

/-- The names of files: one word, in which `;` separates them. -/
def Files (f : Text) : Prop := f ≠ [] ∧ (∀ c ∈ f, c ∉ DataCmd.bseps) ∧ (∀ c ∈ f.head?, isSpaceC c = false) ∧ f.length ≤ 510

theorem trim_tail {s t : Text} (h : Tight t) : trim (s ++ t) = s.dropWhile isTrimC ++ t := by
  obtain ⟨h0, h1, h2⟩ := h
  have e1 : (s ++ t).dropWhile isTrimC = s.dropWhile isTrimC ++ t := by
    rw [List.dropWhile_append]
    have : t.dropWhile isTrimC = t := by
      cases t with
      | nil => exact absurd rfl h0
      | cons c t => rw [List.dropWhile_cons_of_neg]; simpa using h1 c (by simp)
    split
    · rename_i hh
      rw [this, List.isEmpty_iff.mp hh, List.nil_append]
    · rfl
  unfold trim
  rw [e1, List.reverse_append]
  have : ∀ u : Text, (t.reverse ++ u).dropWhile isTrimC = t.reverse ++ u := by
    intro u
    cases hr : t.reverse with
    | nil => exact absurd (by simpa using hr) h0
    | cons c r =>
      rw [List.cons_append, List.dropWhile_cons_of_neg]
      have : c ∈ t.getLast? := by rw [List.getLast?_eq_head?_reverse, hr]; simp
      simpa using h2 c this
  rw [this]
  simp

theorem left_files {f : Text} (h : Files f) {r : Text} (ht : '\t' ∉ r) : left (f ++ r) = f ++ r := by
  obtain ⟨h0, h1, h2, -⟩ := h
  have hm : (f ++ r).map (fun c => if c = '\t' then ' ' else c) = f ++ r := by
    conv => rhs; rw [← List.map_id (f ++ r)]
    refine List.map_congr_left fun c hc => ?_
    have : c ≠ '\t' := by
      rintro rfl
      rcases List.mem_append.mp hc with hc | hc
      · exact h1 _ hc (by decide)
      · exact ht hc
    simp [this]
  unfold left
  simp only [hm]
  cases f with
  | nil => exact absurd rfl h0
  | cons c f =>
    have := h2 c (by simp)
    rw [List.cons_append, List.dropWhile_cons_of_neg (by simp [this])]
    simp

theorem first_files {f : Text} (h : Files f) (r : Text) : ((f ++ ' ' :: r).take 511).takeWhile (· ∉ DataCmd.bseps) = f := by
  obtain ⟨-, h1, -, h3⟩ := h
  rw [List.take_append, List.take_of_length_le (by omega), List.takeWhile_append_of_pos (by simpa using h1)]
  obtain ⟨n, hn⟩ : ∃ n, 511 - f.length = n + 1 := ⟨510 - f.length, by omega⟩
  rw [hn, List.take_succ_cons, List.takeWhile_cons_of_neg (by decide), List.append_nil]

theorem erase_first {x : Text} (h : x ≠ []) (r : Text) : eraseFirst x (x ++ r) = r := by
  cases x with
  | nil => exact absurd rfl h
  | cons c x =>
    rw [List.cons_append, eraseFirst, if_pos, ← List.cons_append, List.drop_left]
    rw [List.isPrefixOf_iff_prefix]
    exact ⟨r, rfl⟩

theorem erase_skip {x : Text} {c : Char} (h : ∀ d ∈ x.head?, d ≠ c) (h0 : x ≠ []) (r : Text) : eraseFirst x (c :: r) = c :: eraseFirst x r := by
  rw [eraseFirst, if_neg]
  rw [List.isPrefixOf_iff_prefix]
  rintro ⟨u, e⟩
  cases x with
  | nil => exact h0 rfl
  | cons d x =>
    simp only [List.cons_append, List.cons.injEq] at e
    exact h d (by simp) e.1

theorem csep_digit {c : Char} (h : c ∈ csep) : isDigitC c = false := by
  unfold csep at h
  simp only [List.mem_cons, List.not_mem_nil, or_false] at h
  rcases h with rfl | rfl | rfl | rfl | rfl <;> rfl

theorem period_digit {p : Text} {per : Period} (h : Period.parse p = .ok per) : p ≠ [] ∧ isDigitC (p.headD '\x00') = true := by
  obtain ⟨h0, h1⟩ := DataCmd.period_head h
  cases p with
  | nil => exact absurd rfl h0
  | cons c r => exact ⟨h0, (DataCmd.digit_iff c).mpr (h1 c (by simp))⟩

theorem sample_periods {a b : Text} {s : Sample} (h : Sample.ofStrings a b = .ok s) : (∃ p, Period.parse a = .ok p) ∧ ∃ p, Period.parse b = .ok p := by
  unfold Sample.ofStrings at h
  cases hp : Period.parse a with
  | ok p =>
    cases hq : Period.parse b with
    | ok q => exact ⟨⟨p, rfl⟩, q, rfl⟩
    | _ => simp [hp, hq, bind, Res.bind] at h
  | _ => simp [hp, bind, Res.bind] at h

/-- `$WsCopyVar files from to names`, with one separator behind each period: the files are read on that sample, for these names. -/
theorem C87_copy_sample {f a b r : Text} {c d : Char} (hf : Files f) (ha : ∀ x ∈ a, x ∉ csep) (hb : ∀ x ∈ b, x ∉ csep) (hc : c ∈ csep) (hd : d ∈ csep) (hr : Tight r)
    (ht : '\t' ∉ a ++ c :: (b ++ d :: r)) {s : Sample} (hs : Sample.ofStrings a b = .ok s) (own : Option (Text × Text)) :
    ∃ q, copyArgs own (f ++ ' ' :: (a ++ c :: (b ++ d :: r))) = .ok (some q) ∧ q.files = f.splitOnP (· ∈ csep) ∧ q.first = a ∧ q.last = b ∧ pieces csep q.data = pieces csep r := by
  obtain ⟨⟨pa, hpa⟩, pb, hpb⟩ := sample_periods hs
  obtain ⟨a0, a1⟩ := period_digit hpa
  obtain ⟨b0, b1⟩ := period_digit hpb
  have hdata : trim (' ' :: (a ++ c :: (b ++ d :: r))) = a ++ c :: (b ++ d :: r) := by
    have e : ' ' :: (a ++ c :: (b ++ d :: r)) = (' ' :: (a ++ c :: (b ++ [d]))) ++ r := by simp
    rw [e, trim_tail hr, List.dropWhile_cons_of_pos (by decide)]
    cases a with
    | nil => exact absurd rfl a0
    | cons x a =>
      have hx := digit_bounds (c := x) a1
      rw [List.cons_append, List.dropWhile_cons_of_neg]
      · simp
      · unfold isTrimC
        simp
        omega
  have hsplit : (a ++ c :: (b ++ d :: r)).splitOnP (· ∈ csep) = a :: b :: r.splitOnP (· ∈ csep) := by
    rw [List.splitOnP_first (by simpa using ha) _ (by simpa using hc), List.splitOnP_first (by simpa using hb) _ (by simpa using hd)]
  have hne : a ++ c :: (b ++ d :: r) ≠ [] := by simp
  have herase : eraseFirst b (eraseFirst a (a ++ c :: (b ++ d :: r))) = [c, d] ++ r := by
    rw [erase_first a0, erase_skip _ b0, erase_first b0]
    · rfl
    · intro x hx e
      cases b with
      | nil => exact absurd rfl b0
      | cons y b =>
        simp only [List.head?_cons, Option.mem_def, Option.some.injEq] at hx
        have h1 : isDigitC y = true := b1
        rw [hx, e, csep_digit hc] at h1
        cases h1
  have hD : trim ([c, d] ++ r) = [c, d].dropWhile isTrimC ++ r := trim_tail hr
  refine ⟨⟨f.splitOnP (· ∈ csep), a, b, [c, d].dropWhile isTrimC ++ r⟩, ?_, rfl, rfl, rfl, ?_⟩
  · unfold copyArgs
    simp only []
    rw [left_files hf (by simpa using ht), first_files hf, List.drop_left, hdata, if_neg hne, hsplit]
    simp only [a1, b1, Bool.and_true, if_true, hs, herase, hD]
    rw [if_neg]
    intro e
    exact hr.1 (List.append_eq_nil_iff.mp e).2
  · refine Args.pieces_skip _ fun x hx => ?_
    have := (List.dropWhile_sublist _).mem hx
    simp only [List.mem_cons, List.not_mem_nil, or_false] at this
    rcases this with rfl | rfl
    · exact hc
    · exact hd

/-- `$WsCopyVar files names` with two names or more: the sample of the workspace; a workspace without sample is refused. -/
theorem C87_copy_names {f w r : Text} {c : Char} (hf : Files f) (hw : Typed .variables w) (hc : c ∈ csep) (hr : Tight r) (ht : '\t' ∉ c :: r) (own : Option (Text × Text)) :
    copyArgs own (f ++ ' ' :: (w ++ c :: r)) = .ok (own.map fun o => ⟨f.splitOnP (· ∈ csep), o.1, o.2, w ++ c :: r⟩) := by
  have hs := DataCmd.name_chars hw
  have h0 := (DataCmd.name_length hw).2
  have hcs : ∀ x ∈ w, x ∉ csep := fun x hx hm => hs x hx (by
    unfold csep at hm
    simp only [List.mem_cons, List.not_mem_nil, or_false] at hm
    rcases hm with rfl | rfl | rfl | rfl | rfl <;> decide)
  have htw : '\t' ∉ w := fun hm => hs _ hm (by decide)
  have hdig : isDigitC (w.headD '\x00') = false := by
    cases w with
    | nil => exact absurd rfl h0
    | cons x w =>
      cases hd : isDigitC x with
      | false => exact hd
      | true =>
        exfalso
        have hb := digit_bounds hd
        have hk := hw.2
        have e : toKey .variables (x :: w) = x :: toUpper w := by
          unfold toKey
          rw [hw.1]
          show toUpper (x :: w) = _
          unfold toUpper
          rw [List.map_cons]
          congr 1
          unfold toUpperC
          rw [if_neg (by omega)]
        rw [e] at hk
        have hh : nameHeadOk .variables x = true := by
          unfold checkName at hk
          simp only [Bool.and_eq_true] at hk
          exact hk.1.1.2
        have hl : ∀ k : Nat, 48 ≤ k → k ≤ 57 → nameHeadOk .variables (Char.ofNat k) = false := by
          intro k h1 h2
          have : k = 48 ∨ k = 49 ∨ k = 50 ∨ k = 51 ∨ k = 52 ∨ k = 53 ∨ k = 54 ∨ k = 55 ∨ k = 56 ∨ k = 57 := by omega
          rcases this with rfl | rfl | rfl | rfl | rfl | rfl | rfl | rfl | rfl | rfl <;> rfl
        have := hl x.toNat hb.1 hb.2
        rw [Char.ofNat_toNat, hh] at this
        cases this
  have hdata : trim (' ' :: (w ++ c :: r)) = w ++ c :: r := by
    have e : ' ' :: (w ++ c :: r) = (' ' :: (w ++ [c])) ++ r := by simp
    rw [e, trim_tail hr, List.dropWhile_cons_of_pos (by decide)]
    cases w with
    | nil => exact absurd rfl h0
    | cons x w =>
      rw [List.cons_append, List.dropWhile_cons_of_neg]
      · simp
      · intro hx
        rw [isTrimC_iff] at hx
        refine hs x (by simp) ?_
        rw [← Char.ofNat_toNat x]
        have : x.toNat = 32 ∨ x.toNat = 9 ∨ x.toNat = 10 ∨ x.toNat = 11 ∨ x.toNat = 12 ∨ x.toNat = 13 := by omega
        rcases this with e | e | e | e | e | e <;> rw [e] <;> decide
  have hsplit : (w ++ c :: r).splitOnP (· ∈ csep) = w :: r.splitOnP (· ∈ csep) := List.splitOnP_first (by simpa using hcs) _ (by simpa using hc) _
  obtain ⟨y, ys, hy⟩ : ∃ y ys, r.splitOnP (· ∈ csep) = y :: ys := by
    cases hy : r.splitOnP (· ∈ csep) with
    | nil => exact absurd hy (List.splitOnP_ne_nil _ _)
    | cons y ys => exact ⟨y, ys, rfl⟩
  unfold copyArgs
  simp only []
  rw [left_files hf (by simp [htw] at ht ⊢; exact ht), first_files hf, List.drop_left, hdata, if_neg (by simp), hsplit, hy]
  simp only [hdig, Bool.false_and, Bool.false_eq_true, if_false]
  cases own with
  | none => rfl
  | some o => rfl

/-- `$WsCopyVar files name` with one name: no sample at all, the one of the file is copied. -/
theorem C87_copy_name {f w : Text} (hf : Files f) (hw : Typed .variables w) (own : Option (Text × Text)) :
    copyArgs own (f ++ ' ' :: w) = .ok (some ⟨f.splitOnP (· ∈ csep), [], [], w⟩) := by
  have hs := DataCmd.name_chars hw
  have h0 := (DataCmd.name_length hw).2
  have hcs : ∀ x ∈ w, x ∉ csep := fun x hx hm => hs x hx (by
    unfold csep at hm
    simp only [List.mem_cons, List.not_mem_nil, or_false] at hm
    rcases hm with rfl | rfl | rfl | rfl | rfl <;> decide)
  have htw : '\t' ∉ w := fun hm => hs _ hm (by decide)
  have hdata : trim (' ' :: w) = w := by
    have : trim (' ' :: w) = trim w := by unfold trim; rw [List.dropWhile_cons_of_pos (by decide)]
    rw [this, hw.1]
  unfold copyArgs
  simp only []
  rw [left_files hf (by simp [htw]), first_files hf, List.drop_left, hdata, if_neg h0, List.splitOnP_eq_singleton (by simpa using hcs)]

/-- Two blanks between the periods, or a comma and a blank: the periods are taken for names, and the sample is that of the workspace. -/
theorem C87_two_blanks_counterexample : copyArgs (some ("1990Y1".toList, "2000Y1".toList)) "f.var 1995Y1  1996Y1 A".toList =
    .ok (some ⟨["f.var".toList], "1990Y1".toList, "2000Y1".toList, "1995Y1  1996Y1 A".toList⟩) ∧
    copyArgs (some ("1990Y1".toList, "2000Y1".toList)) "f.var 1995Y1, 1996Y1, A".toList =
    .ok (some ⟨["f.var".toList], "1990Y1".toList, "2000Y1".toList, "1995Y1, 1996Y1, A".toList⟩) := by decide +kernel

/-! ## Examples -/

example : Files "a.var;b.var".toList ∧ Tight "A B".toList ∧ copyArgs none "a.var;b.var 1995Y1 1996Y1 A B".toList =
    .ok (some ⟨["a.var".toList, "b.var".toList], "1995Y1".toList, "1996Y1".toList, "A B".toList⟩) := by
  refine ⟨⟨by decide, by decide, by decide, by decide⟩, ⟨by decide, by decide, by decide⟩, by decide +kernel⟩

/-- The variable after a command that succeeds. -/
def shown (o : Out (VWorld (Option Rat))) (name : Name) : Option (List (Option Rat)) :=
  match o with
  | .done v => v.look 0 name
  | _ => none

def plain : Args.World := ⟨Args.seps, fun _ => none, fun _ => none⟩

theorem quarters_fair : Sample.Fair ⟨⟨2001, 2, 'Q'⟩, ⟨2001, 3, 'Q'⟩, 2⟩ := ⟨1, ⟨⟨4, rfl, by decide, by decide⟩, ⟨4, rfl, by decide, by decide⟩, rfl, rfl⟩, by decide, rfl⟩

theorem two_words : Words "2001Q2, 2001Q3".toList ["2001Q2".toList, "2001Q3".toList] := ⟨by decide, by decide +kernel, by unfold Ordinary; decide⟩

theorem four_words : Words "6 2001Q2 2001Q3 a".toList ["6".toList, "2001Q2".toList, "2001Q3".toList, "a".toList] := ⟨by decide, by decide +kernel, by unfold Ordinary; decide⟩

example : Sample.ofStrings "2001Q2".toList "2001Q3".toList = .ok ⟨⟨2001, 2, 'Q'⟩, ⟨2001, 3, 'Q'⟩, 2⟩ ∧
    Takes ((VWorld.init : VWorld (Option Rat)).run none modesHistory) 0 ⟨⟨2001, 2, 'Q'⟩, ⟨2001, 3, 'Q'⟩, 2⟩ ∧
    shown (sample plain none (VWorld.init.run none modesHistory) 0 "2001Q2, 2001Q3".toList) "A".toList = some [none, some 0] := by
  refine ⟨by decide +kernel, (C12_when_partial none modesHistory ?_ 0 _ quarters_fair).mp (by decide +kernel), by decide +kernel⟩
  have h := smpQ_fair
  simp only [Regular, modesHistory, VOp.RenamesOntoUsed, VOp.ClearsSubset, VOp.BadSample]
  simp [h]

example : Asked ["6".toList, "2001Q2".toList, "2001Q3".toList, "a".toList] .extraNA ⟨⟨2001, 2, 'Q'⟩, ⟨2001, 3, 'Q'⟩, 2⟩ ["a".toList] ∧
    Asked ["2001Q2".toList, "2001Q3".toList] .tm1 ⟨⟨2001, 2, 'Q'⟩, ⟨2001, 3, 'Q'⟩, 2⟩ [] ∧ Typed .variables "a".toList ∧
    shown (extrapolate (· == 0) plain (VWorld.init.run none modesHistory) 0 "6 2001Q2 2001Q3 a".toList) "A".toList =
      some [some 1, some 2, some 4, some 8, some 16, some 24, some 0, some 5] :=
  ⟨.method _ (by unfold Method; decide) (by decide +kernel), .none _ (by decide +kernel) (by decide +kernel), ⟨by decide, by decide⟩, by decide +kernel⟩

end Iode.WsCmd
