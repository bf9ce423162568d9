import Verif.Spec.Scan
import Verif.Props.C66
import Verif.Props.C21
import Verif.Lemmas.PrintfText
import Verif.Lemmas.LecLex

/-!
# C68: the names used in equations, identities and tables
-/
namespace Iode.Scan

open Iode.Spec.Scan Iode.Args

variable {V : Type}

/-! ## Long lists -/

/-- The terms of a list in several parts. -/
theorem refs_text {name : Name} (n i : Nat) (hlen : ∀ k, k < n → (name ++ natToChars (i + k)).length ≤ 18) :
    Lists.refs name i n = .ok ((Lists.refWords name i n).flatMap fun w => w ++ [';']) := by
  induction n generalizing i with
  | zero => rfl
  | succ n ih =>
    have h0 : (name ++ natToChars i).length ≤ 18 := hlen 0 (by omega)
    have hl : ('$' :: (name ++ natToChars i ++ [';'])).length ≤ 20 := by
      simp only [List.length_cons, List.length_append, List.length_nil] at h0 ⊢; omega
    rw [Lists.refs, Lists.inBuf, if_neg (by omega), List.take_of_length_le hl, Args.bind_ok, ih (i + 1) (fun k hk => by
      have := hlen (k + 1) (by omega)
      rwa [show i + 1 + k = i + (k + 1) from by omega]), Args.bind_ok, Lists.refWords, List.flatMap_cons]
    rfl

theorem pieces_parts {sp : List Char} (hs : ';' ∈ sp) : ∀ {ws : List Text}, (∀ w ∈ ws, Single sp w) → pieces sp (ws.flatMap fun w => w ++ [';']) = ws
  | [], _ => by simp [Args.pieces_nil]
  | w :: ws, h => by
    have hw := h w (by simp)
    rw [List.flatMap_cons, List.append_assoc, List.singleton_append, Args.pieces_word hs _ (fun c hc => (hw.2.1 c hc).1) hw.1,
      pieces_parts hs fun w hw => h w (by simp [hw])]

theorem fit_parts {sp : List Char} (hs : ';' ∈ sp) {ws : List Text} (h : ∀ w ∈ ws, Single sp w) : Fit sp (ws.flatMap fun w => w ++ [';']) := by
  refine ⟨?_, fun w hw => ?_⟩
  · simp only [List.mem_flatMap, List.mem_append, List.mem_singleton, not_exists, not_and, not_or]
    exact fun w hw => ⟨fun hm => ((h w hw).2.1 _ hm).2 rfl, by decide⟩
  · rw [pieces_parts hs h] at hw
    exact (h w hw).2.2

theorem ident_word {name : Name} (h : Lists.Ident name) (hl : name.length ≤ 100) : Single seps ('$' :: name) := by
  refine ⟨by simp, fun c hc => ?_, by simp; omega⟩
  rcases List.mem_cons.mp hc with rfl | hc
  · decide
  · have := h.2.1 c hc
    have bad : ∀ c : Char, c ∈ [' ', ',', ';', '\n', '\t', '\r', '"'] → nameTailOk .comments c = false := by decide
    refine ⟨fun hm => ?_, fun e => ?_⟩
    · unfold seps at hm
      rw [bad c (by simp only [List.mem_cons, List.not_mem_nil, or_false] at hm ⊢; tauto)] at this; simp at this
    · rw [bad c (by simp [e])] at this; simp at this

/-- The parts of a list give, one after the other, its words. -/
theorem means_parts {W : Args.World} (hsp : W.sp = seps) (k : Nat) {name : Name} : ∀ {cs : List (List Text)} (i : Nat),
    (∀ (n : Nat) (hn : n < cs.length), W.look (name ++ natToChars (i + n)) = some (Lists.join cs[n])) →
    (∀ c ∈ cs, ∀ w ∈ c, Single seps w ∧ Ordinary w) → Means W (k + 1) (Lists.refWords name i cs.length) cs.flatten
  | [], i, _, _ => .nil _
  | c :: cs, i, hl, hw => by
    obtain ⟨h1, h2⟩ := LstCalc.join_read fun w hw' => (hw c (by simp) w hw').1
    have := hl 0 (by simp)
    rw [Nat.add_zero] at this
    refine Means.list this (hsp ▸ h1) (hsp ▸ (h2.symm ▸ LstCalc.means_plain W k fun w hw' => (hw c (by simp) w hw').2)) ?_
    refine means_parts hsp k (i + 1) (fun n hn => ?_) fun c hc => hw c (by simp [hc])
    have := hl (n + 1) (by simpa using hn)
    rwa [show i + 1 + n = i + (n + 1) from by omega]

/-- A list of words stored by `KL_lst` gives these words when it is read, however long it is.  Only this list and its parts change. -/
theorem split_read (file : Text → Option Text) (st : Lists.Store) {name : Name} (hid : Lists.Ident name) (hn : name.length ≤ 8) {l : List Text}
    (hw : ∀ w ∈ l, Single seps w ∧ Ordinary w) (hl : l.length < 2 ^ 31) :
    ∃ st', Lists.split st name l 200 = .ok ⟨st', true⟩ ∧ Args.init (LstCalc.world file st') ('$' :: name) = .ok (some l) ∧
      (∀ k, k ≠ toKey .lists name → (∀ j, k ≠ toKey .lists (name ++ natToChars j)) → SMap.find k st' = SMap.find k st) ∧
      SMap.find (toKey .lists name) st' ≠ none ∧
      ∀ f st2, (∀ k, k = toKey .lists name ∨ (∃ j, k = toKey .lists (name ++ natToChars j)) → SMap.find k st2 = SMap.find k st') →
        Args.init (LstCalc.world f st2) ('$' :: name) = .ok (some l) := by
  have hv := hid.valid (by omega)
  have hs := ident_word hid (by omega)
  suffices h : ∃ st', Lists.split st name l 200 = .ok ⟨st', true⟩ ∧
      (∀ k, k ≠ toKey .lists name → (∀ j, k ≠ toKey .lists (name ++ natToChars j)) → SMap.find k st' = SMap.find k st) ∧
      SMap.find (toKey .lists name) st' ≠ none ∧
      ∀ f st2, (∀ k, k = toKey .lists name ∨ (∃ j, k = toKey .lists (name ++ natToChars j)) → SMap.find k st2 = SMap.find k st') →
        Args.init (LstCalc.world f st2) ('$' :: name) = .ok (some l) by
    obtain ⟨st', h1, h2, h3, h4⟩ := h
    exact ⟨st', h1, h4 file st' fun _ _ => rfl, h2, h3, h4⟩
  have hset : ∀ (st : Lists.Store) t, Lists.setOut st name t = ⟨st.insert (toKey .lists name) t, true⟩ := fun st t => by simp [Lists.setOut, Lists.put, hv]
  by_cases hlt : l.length < 200
  · refine ⟨st.insert (toKey .lists name) (Lists.join l), ?_, fun k hk _ => SMap.find_insert_ne _ _ hk, by simp, fun f st2 h2 => ?_⟩
    · unfold Lists.split
      by_cases h0 : l.length = 0
      · rw [if_pos h0, hset, List.length_eq_zero_iff.mp h0]; rfl
      · rw [if_neg h0, if_pos (Or.inl (by exact_mod_cast hlt)), hset]
    · obtain ⟨r1, r2⟩ := LstCalc.join_read fun w hw' => (hw w hw').1
      refine LstCalc.init_list (W := LstCalc.world f st2) LstCalc.usual_seps hs ?_ r1 r2 fun w hw' => (hw w hw').2
      show SMap.find _ st2 = _
      rw [h2 _ (Or.inl rfl), SMap.find_insert_self]
  · have hidx : ∀ i, i < (Lists.chunks 200 l.length l).length → (name ++ natToChars (0 + i)).length ≤ 18 := by
      intro i hi
      have := Lists.chunks_index (by omega) _ _ _ hi
      have := Printf.natToChars_length (n := 0 + i) (k := 10) (by omega) (by omega)
      rw [List.length_append]; omega
    obtain ⟨st', h1, h2, h3⟩ := Lists.subLoop_spec hid l.length 0 l st fun i hi => Nat.le_trans (hidx i hi) (by omega)
    have hr := refs_text (Lists.chunks 200 l.length l).length 0 hidx
    have hne : ∀ j, toKey .lists (name ++ natToChars j) ≠ toKey .lists name := by
      intro j e
      rw [(hid.sub j).key, hid.key] at e
      have := congrArg List.length e
      have h1 : 1 ≤ (natToChars j).length := by
        cases h : natToChars j with
        | nil => exact absurd h (natToChars_ne_nil j)
        | cons => simp
      simp [toUpper] at this
      rw [this] at h1
      simp at h1
    refine ⟨st'.insert (toKey .lists name) ((Lists.refWords name 0 (Lists.chunks 200 l.length l).length).flatMap fun w => w ++ [';']), ?_, fun k hk hj => ?_, by simp, fun f st2 h2' => ?_⟩
    · unfold Lists.split
      rw [if_neg (by omega), if_neg (by omega), if_neg (by omega), show (200 : Int).toNat = 200 from rfl, h1, Args.bind_ok]
      simp only [if_true]
      rw [Nat.zero_add, hr, Args.bind_ok, hset]
    · rw [SMap.find_insert_ne _ _ hk]
      exact h3 k fun i _ => hj i
    · have hsingle : ∀ (n i : Nat), (∀ k, k < n → (name ++ natToChars (i + k)).length ≤ 18) → ∀ w ∈ Lists.refWords name i n, Single seps w := by
        intro n
        induction n with
        | zero => intro i _ w hw; simp [Lists.refWords] at hw
        | succ n ih =>
          intro i hi w hw
          rw [Lists.refWords] at hw
          rcases List.mem_cons.mp hw with rfl | hw
          · exact ident_word (hid.sub i) (by have := hi 0 (by omega); rw [Nat.add_zero] at this; omega)
          · exact ih (i + 1) (fun k hk => by have := hi (k + 1) (by omega); rwa [show i + 1 + k = i + (k + 1) from by omega]) w hw
      have hsw := hsingle _ 0 hidx
      refine Args.C64_arguments LstCalc.usual_seps hs.fit ?_
      rw [show (LstCalc.world f st2).sp = seps from rfl, Args.pieces_end (fun c hc => (hs.2.1 c hc).1) hs.1]
      have hm := means_parts (W := LstCalc.world f st2) rfl 8 (name := name) (cs := Lists.chunks 200 l.length l) 0 (fun n hn => by
        show SMap.find _ st2 = _
        rw [h2' _ (Or.inr ⟨_, rfl⟩), SMap.find_insert_ne _ _ (hne _)]
        exact h2 n hn) (fun c hc w hw' => hw w (by
          rw [← Lists.chunks_flatten (c := 200) (by omega) l.length l (Nat.le_refl _)]
          exact List.mem_flatten.mpr ⟨c, hc, hw'⟩))
      rw [Lists.chunks_flatten (by omega) _ _ (Nat.le_refl _)] at hm
      have := Means.list (W := LstCalc.world f st2) (k := 9) (ws := []) (x := name)
        (t := (Lists.refWords name 0 (Lists.chunks 200 l.length l).length).flatMap fun w => w ++ [';']) (by
          show SMap.find _ st2 = _
          rw [h2' _ (Or.inl rfl), SMap.find_insert_self]) (fit_parts (sp := seps) (by decide) hsw)
        (by rw [show (LstCalc.world f st2).sp = seps from rfl, pieces_parts (by decide) hsw]; exact hm) (.nil _)
      simpa using this

/-! ## Collecting the names -/

/-- What has been collected: in order, and these names. -/
structure Got (P Q : Name → Prop) (a : Acc) : Prop where
  sorted : SMap.Sorted a.exo ∧ SMap.Sorted a.scal
  exo : ∀ w, w ∈ a.exo.keys ↔ P w
  scal : ∀ w, w ∈ a.scal.keys ↔ Q w

theorem coef_key {x : Name} (h : Coef x) : toKey .scalars x = x := toKey_of_checkName h

theorem clec_got {has : Name → Bool} {P Q : Name → Prop} : ∀ {l : List Name} {a : Acc}, Got P Q a →
    (∀ x ∈ l, Coef x ∨ checkName .variables (toKey .variables x) = true) →
    ∃ b, clecScan has l a = .ok b ∧ Got (fun w => P w ∨ ∃ x ∈ l, ¬ Coef x ∧ ¬ has x = true ∧ w = toKey .variables x) (fun w => Q w ∨ (w ∈ l ∧ Coef w)) b
  | [], a, h, _ => ⟨a, rfl, by simpa using h⟩
  | x :: l, a, h, hv => by
    have hl := fun y hy => hv y (List.mem_cons_of_mem _ hy)
    have step : ∀ {P' Q' : Name → Prop} {b : Acc}, Got P' Q' b → clecScan has (x :: l) a = clecScan has l b →
        (∀ w, (P' w ∨ ∃ y ∈ l, ¬ Coef y ∧ ¬ has y = true ∧ w = toKey .variables y) ↔ (P w ∨ ∃ y ∈ x :: l, ¬ Coef y ∧ ¬ has y = true ∧ w = toKey .variables y)) →
        (∀ w, (Q' w ∨ (w ∈ l ∧ Coef w)) ↔ (Q w ∨ (w ∈ x :: l ∧ Coef w))) →
        ∃ b, clecScan has (x :: l) a = .ok b ∧ Got (fun w => P w ∨ ∃ y ∈ x :: l, ¬ Coef y ∧ ¬ has y = true ∧ w = toKey .variables y)
          (fun w => Q w ∨ (w ∈ x :: l ∧ Coef w)) b := by
      intro P' Q' b hb e hp hq
      obtain ⟨b', h1, h2⟩ := clec_got (has := has) hb hl
      refine ⟨b', e.trans h1, h2.sorted, fun w => (h2.exo w).trans (hp w), fun w => (h2.scal w).trans (hq w)⟩
    by_cases hc : Coef x
    · refine step (P' := P) (Q' := fun w => Q w ∨ w = x) (b := { a with scal := a.scal.insert (toKey .scalars x) () })
        ⟨⟨h.sorted.1, SMap.sorted_insert _ _ _ h.sorted.2⟩, h.exo, fun w => ?_⟩ ?_ ?_ ?_
      · rw [SMap.mem_insert_keys, coef_key hc, h.scal w]; tauto
      · rw [clecScan, if_pos (show Lec.isCoef x = true from hc), if_pos (by rw [coef_key hc]; exact hc)]
      · intro w
        simp only [List.mem_cons, exists_eq_or_imp]
        tauto
      · intro w
        simp only [List.mem_cons]
        constructor
        · rintro ((h | rfl) | h) <;> tauto
        · tauto
    · by_cases hh : has x = true
      · refine step (P' := P) (Q' := Q) (b := a) h ?_ ?_ ?_
        · rw [clecScan, if_neg (show ¬ Lec.isCoef x = true from hc), if_pos hh]
        · intro w
          simp only [List.mem_cons, exists_eq_or_imp]
          tauto
        · intro w
          simp only [List.mem_cons]
          constructor
          · tauto
          · rintro (h | ⟨rfl | h, h'⟩) <;> tauto
      · have hval := (hv x (by simp)).resolve_left hc
        refine step (P' := fun w => P w ∨ w = toKey .variables x) (Q' := Q) (b := { a with exo := a.exo.insert (toKey .variables x) () })
          ⟨⟨SMap.sorted_insert _ _ _ h.sorted.1, h.sorted.2⟩, fun w => ?_, h.scal⟩ ?_ ?_ ?_
        · rw [SMap.mem_insert_keys, h.exo w]; tauto
        · rw [clecScan, if_neg (show ¬ Lec.isCoef x = true from hc), if_neg hh, if_pos hval]
        · intro w
          simp only [List.mem_cons, exists_eq_or_imp]
          tauto
        · intro w
          simp only [List.mem_cons]
          constructor
          · tauto
          · rintro (h | ⟨rfl | h, h'⟩) <;> tauto

/-- A name in these formulas. -/
def In (fs : List Form) (x : Name) : Prop := ∃ l, Form.names l ∈ fs ∧ x ∈ l

theorem forms_got {has : Name → Bool} {P Q : Name → Prop} : ∀ {fs : List Form} {a : Acc}, Got P Q a →
    (∀ f ∈ fs, f ≠ .missing ∧ ∀ l, f = .names l → ∀ x ∈ l, Coef x ∨ checkName .variables (toKey .variables x) = true) →
    ∃ b, scanForms has fs a = .ok (some b) ∧ Got (fun w => P w ∨ ∃ x, In fs x ∧ ¬ Coef x ∧ ¬ has x = true ∧ w = toKey .variables x) (fun w => Q w ∨ (In fs w ∧ Coef w)) b
  | [], a, h, _ => ⟨a, rfl, by simpa [In] using h⟩
  | f :: fs, a, h, hv => by
    have hl := fun y hy => hv y (List.mem_cons_of_mem _ hy)
    obtain ⟨h1, h2⟩ := hv f (by simp)
    cases f with
    | missing => exact absurd rfl h1
    | bad =>
      obtain ⟨b, e, hb⟩ := forms_got (has := has) h hl
      exact ⟨b, e, by simpa [In] using hb⟩
    | names l =>
      obtain ⟨c, e1, hc⟩ := clec_got (has := has) h (h2 l rfl)
      obtain ⟨b, e, hb⟩ := forms_got (has := has) hc hl
      refine ⟨b, by rw [scanForms, e1]; exact e, hb.sorted, fun w => (hb.exo w).trans ?_, fun w => (hb.scal w).trans ?_⟩
      · simp only [In, List.mem_cons, Form.names.injEq]
        constructor
        · rintro ((h | ⟨x, hx, h⟩) | ⟨x, ⟨l', hl', hx⟩, h⟩)
          · exact .inl h
          · exact .inr ⟨x, ⟨l, .inl rfl, hx⟩, h⟩
          · exact .inr ⟨x, ⟨l', .inr hl', hx⟩, h⟩
        · rintro (h | ⟨x, ⟨l', rfl | hl', hx⟩, h⟩)
          · exact .inl (.inl h)
          · exact .inl (.inr ⟨x, hx, h⟩)
          · exact .inr ⟨x, ⟨l', hl', hx⟩, h⟩
      · simp only [In, List.mem_cons, Form.names.injEq]
        constructor
        · rintro ((h | ⟨hx, h⟩) | ⟨⟨l', hl', hx⟩, h⟩)
          · exact .inl h
          · exact .inr ⟨⟨l, .inl rfl, hx⟩, h⟩
          · exact .inr ⟨⟨l', .inr hl', hx⟩, h⟩
        · rintro (h | ⟨⟨l', rfl | hl', hx⟩, h⟩)
          · exact .inl (.inl h)
          · exact .inl (.inr ⟨hx, h⟩)
          · exact .inr ⟨⟨l', hl', hx⟩, h⟩

theorem objs_got {forms : V → List Form} {has : Name → Bool} {P Q : Name → Prop} : ∀ {db : List (Name × V)} {a : Acc}, Got P Q a → Sound forms db →
    ∃ b, scanObjs forms has db a = .ok (some b) ∧
      Got (fun w => P w ∨ ∃ x, Used forms db x ∧ ¬ Coef x ∧ ¬ has x = true ∧ w = toKey .variables x) (fun w => Q w ∨ (Used forms db w ∧ Coef w)) b
  | [], a, h, _ => ⟨a, rfl, by simpa [Used] using h⟩
  | e :: db, a, h, hv => by
    obtain ⟨c, e1, hc⟩ := forms_got (has := has) h (hv e (by simp))
    obtain ⟨b, e2, hb⟩ := objs_got (forms := forms) (has := has) (db := db) hc fun y hy => hv y (List.mem_cons_of_mem _ hy)
    have used : ∀ x, Used forms (e :: db) x ↔ In (forms e.2) x ∨ Used forms db x := fun x => by simp [Used, In]
    refine ⟨b, by rw [scanObjs, e1]; exact e2, hb.sorted, fun w => (hb.exo w).trans ?_, fun w => (hb.scal w).trans ?_⟩
    · constructor
      · rintro ((h | ⟨x, hx, h⟩) | ⟨x, hx, h⟩)
        · exact .inl h
        · exact .inr ⟨x, (used x).mpr (.inl hx), h⟩
        · exact .inr ⟨x, (used x).mpr (.inr hx), h⟩
      · rintro (h | ⟨x, hx, h⟩)
        · exact .inl (.inl h)
        · rcases (used x).mp hx with hx | hx
          · exact .inl (.inr ⟨x, hx, h⟩)
          · exact .inr ⟨x, hx, h⟩
    · rw [used]; tauto

/-! ## The two lists -/

theorem exo_ident : Lists.Ident exoName ∧ Lists.Ident scalName := by unfold Lists.Ident; decide +kernel

theorem split_other (a b : Name) (h : a = exoName ∧ b = scalName ∨ a = scalName ∧ b = exoName) (j : Nat) :
    toKey .lists a ≠ toKey .lists b ∧ toKey .lists a ≠ toKey .lists (b ++ natToChars j) ∧ ∀ i, toKey .lists (a ++ natToChars i) ≠ toKey .lists b ∧
      toKey .lists (a ++ natToChars i) ≠ toKey .lists (b ++ natToChars j) := by
  have ha : Lists.Ident a := by rcases h with ⟨rfl, rfl⟩ | ⟨rfl, rfl⟩; exacts [exo_ident.1, exo_ident.2]
  have hb : Lists.Ident b := by rcases h with ⟨rfl, rfl⟩ | ⟨rfl, rfl⟩; exacts [exo_ident.2, exo_ident.1]
  have second : ∀ s : Name, (toUpper (exoName ++ s))[1]? = some 'E' ∧ (toUpper (scalName ++ s))[1]? = some 'S' := fun s => ⟨rfl, rfl⟩
  have diff : ∀ s t : Name, toUpper (a ++ s) ≠ toUpper (b ++ t) := by
    intro s t e
    have := congrArg (fun l : List Char => l[1]?) e
    rcases h with ⟨rfl, rfl⟩ | ⟨rfl, rfl⟩
    · simp only [(second s).1, (second t).2] at this; exact absurd this (by decide)
    · simp only [(second s).2, (second t).1] at this; exact absurd this (by decide)
  simp only [ha.key, hb.key, (ha.sub _).key, (hb.sub _).key]
  have d0 := diff [] []
  have d1 := diff []
  simp only [List.append_nil] at d0 d1
  refine ⟨d0, d1 _, fun i => ⟨?_, diff _ _⟩⟩
  have := diff (natToChars i) []
  rwa [List.append_nil] at this

/-- After a search `_SCAL` and `_EXO` give, when they are read, the scalars and the variables of all the formulas, however many they are;
    no other list changes but the parts of these two. -/
theorem C68_scan (file : Text → Option Text) (st : Lists.Store) {forms : V → List Form} {has : Name → Bool} {db : SMap V} (h0 : db ≠ [])
    (hs : Sound forms db) :
    ∃ exo scal, Variables forms (fun x => has x = true) db exo ∧ Scalars forms db scal ∧
      (exo.length < 2 ^ 31 → scal.length < 2 ^ 31 → ∃ st', scan forms has db st = .ok ⟨st', true⟩ ∧
        Args.init (LstCalc.world file st') ('$' :: exoName) = .ok (some exo) ∧ Args.init (LstCalc.world file st') ('$' :: scalName) = .ok (some scal) ∧
        ∀ k, k ≠ exoName → k ≠ scalName → (∀ j, k ≠ exoName ++ natToChars j ∧ k ≠ scalName ++ natToChars j) → SMap.find k st' = SMap.find k st) := by
  obtain ⟨a, ha, hg⟩ := objs_got (forms := forms) (has := has) (db := db) (a := ⟨[], []⟩) (P := fun _ => False) (Q := fun _ => False)
    ⟨⟨by simp [SMap.Sorted], by simp [SMap.Sorted]⟩, by simp [SMap.keys], by simp [SMap.keys]⟩ hs
  have hexo : Variables forms (fun x => has x = true) db a.exo.keys := ⟨Compare.sorted_keys hg.sorted.1, fun w => (hg.exo w).trans (by simp)⟩
  have hscal : Scalars forms db a.scal.keys := ⟨Compare.sorted_keys hg.sorted.2, fun w => (hg.scal w).trans (by simp)⟩
  refine ⟨a.exo.keys, a.scal.keys, hexo, hscal, fun l1 l2 => ?_⟩
  have w1 : ∀ w ∈ a.exo.keys, Single seps w ∧ Ordinary w := by
    intro w hw
    obtain ⟨x, ⟨e, he, l, hl, hx⟩, hc, _, rfl⟩ := (hexo.2 w).mp hw
    exact Compare.name_word (((hs e he _ hl).2 l rfl x hx).resolve_left hc)
  have w2 : ∀ w ∈ a.scal.keys, Single seps w ∧ Ordinary w := fun w hw => Compare.name_word ((hscal.2 w).mp hw).2
  obtain ⟨s1, a1, _, a3, _, a5⟩ := split_read file st exo_ident.2 (by decide) w2 l2
  obtain ⟨s2, b1, b2, b3, _, _⟩ := split_read file s1 exo_ident.1 (by decide) w1 l1
  have kE : toKey .lists exoName = exoName := by decide
  have kS : toKey .lists scalName = scalName := by decide
  have up : ∀ (name : Name) (hid : Lists.Ident name) (_ : toUpper name = name) j, toKey .lists (name ++ natToChars j) = name ++ natToChars j := by
    intro name hid hu j
    rw [Lists.subKey_eq hid, hu]
  refine ⟨s2, ?_, b2, a5 file s2 ?_, fun k k1 k2 k3 => ?_⟩
  · unfold scan
    rw [if_neg (by simpa using h0), ha, Args.bind_ok]
    simp only [a1, Args.bind_ok, b1]
  · rintro k (rfl | ⟨j, rfl⟩)
    · exact b3 _ (split_other _ _ (.inr ⟨rfl, rfl⟩) 0).1 fun j => (split_other _ _ (.inr ⟨rfl, rfl⟩) j).2.1
    · exact b3 _ ((split_other _ _ (.inr ⟨rfl, rfl⟩) 0).2.2 j).1 fun i => ((split_other _ _ (.inr ⟨rfl, rfl⟩) i).2.2 j).2
  · rw [b3 k (kE ▸ k1) fun j => by rw [up _ exo_ident.1 (by decide)]; exact (k3 j).1,
      a3 k (kS ▸ k2) fun j => by rw [up _ exo_ident.2 (by decide)]; exact (k3 j).2]

/-- The two lists are unique. -/
theorem C68_unique {forms : V → List Form} {out : Name → Prop} {db : SMap V} {l l' : List Name}
    (h : Variables forms out db l ∧ Variables forms out db l' ∨ Scalars forms db l ∧ Scalars forms db l') : l = l' := by
  have irr : ∀ (a : Name), ¬ nameLt a a = true := fun a => by simp [SMap.nameLt_irrefl]
  have key : ∀ {l l' : List Name}, InOrder l → InOrder l' → (∀ w, w ∈ l ↔ w ∈ l') → l = l' := by
    intro l l' h1 h2 h
    have n1 : l.Nodup := h1.imp fun {a b} (h : nameLt a b = true) (e : a = b) => irr a (by rw [← e] at h; exact h)
    have n2 : l'.Nodup := h2.imp fun {a b} (h : nameLt a b = true) (e : a = b) => irr a (by rw [← e] at h; exact h)
    refine List.Perm.eq_of_pairwise (fun a b _ _ h1 h2 => absurd (SMap.nameLt_trans h1 h2) (irr a)) h1 h2 ((List.perm_ext_iff_of_nodup n1 n2).mpr h)
  rcases h with ⟨h, h'⟩ | ⟨h, h'⟩
  · exact key h.1 h'.1 fun w => (h.2 w).trans (h'.2 w).symm
  · exact key h.1 h'.1 fun w => (h.2 w).trans (h'.2 w).symm

/-- An empty database and a formula that is missing are refused: no list changes. -/
theorem C68_refused (st : Lists.Store) {forms : V → List Form} {has : Name → Bool} {db : SMap V}
    (hv : ∀ e ∈ db, ∀ l, Form.names l ∈ forms e.2 → ∀ x ∈ l, Coef x ∨ checkName .variables (toKey .variables x) = true)
    (h : db = [] ∨ ∃ e ∈ db, Form.missing ∈ forms e.2) : scan forms has db st = .ok ⟨st, false⟩ := by
  have hclec : ∀ (l : List Name) (a : Acc), (∀ x ∈ l, Coef x ∨ checkName .variables (toKey .variables x) = true) → ∃ b, clecScan has l a = .ok b := by
    intro l
    induction l with
    | nil => exact fun a _ => ⟨a, rfl⟩
    | cons x l ih =>
      intro a hx
      have hl := fun y hy => hx y (List.mem_cons_of_mem _ hy)
      by_cases hc : Coef x
      · rw [clecScan, if_pos (show Lec.isCoef x = true from hc), if_pos (by rw [coef_key hc]; exact hc)]; exact ih _ hl
      · rw [clecScan, if_neg (show ¬ Lec.isCoef x = true from hc)]
        split
        · exact ih _ hl
        · rw [if_pos ((hx x (by simp)).resolve_left hc)]; exact ih _ hl
  have hforms : ∀ (fs : List Form) (a : Acc), (∀ l, Form.names l ∈ fs → ∀ x ∈ l, Coef x ∨ checkName .variables (toKey .variables x) = true) →
      ∃ r, scanForms has fs a = .ok r ∧ (Form.missing ∈ fs → r = none) := by
    intro fs
    induction fs with
    | nil => exact fun a _ => ⟨_, rfl, by simp⟩
    | cons f fs ih =>
      intro a hx
      have hl := fun l hl => hx l (List.mem_cons_of_mem _ hl)
      cases f with
      | missing => exact ⟨none, rfl, fun _ => rfl⟩
      | bad =>
        obtain ⟨r, h1, h2⟩ := ih a hl
        exact ⟨r, h1, by simpa using h2⟩
      | names l =>
        obtain ⟨b, hb⟩ := hclec l a (hx l (by simp))
        obtain ⟨r, h1, h2⟩ := ih b hl
        exact ⟨r, by rw [scanForms, hb]; exact h1, by simpa using h2⟩
  have hobjs : ∀ (db : List (Name × V)) (a : Acc), (∀ e ∈ db, ∀ l, Form.names l ∈ forms e.2 → ∀ x ∈ l, Coef x ∨ checkName .variables (toKey .variables x) = true) →
      (∃ e ∈ db, Form.missing ∈ forms e.2) → scanObjs forms has db a = .ok none := by
    intro db
    induction db with
    | nil => rintro a _ ⟨e, he, _⟩; simp at he
    | cons e db ih =>
      rintro a hx ⟨e', he', hm⟩
      obtain ⟨r, h1, h2⟩ := hforms (forms e.2) a (hx e (by simp))
      rw [scanObjs, h1, Args.bind_ok]
      cases r with
      | none => rfl
      | some b =>
        refine ih b (fun e he => hx e (List.mem_cons_of_mem _ he)) ?_
        rcases List.mem_cons.mp he' with rfl | he'
        · exact absurd (h2 hm) (by simp)
        · exact ⟨e', he', hm⟩
  rcases h with rfl | h
  · rfl
  · have hne : db ≠ [] := by rintro rfl; obtain ⟨e, he, _⟩ := h; simp at he
    unfold scan
    rw [if_neg (by simpa using hne), hobjs db _ hv h, Args.bind_ok]

/-! ## Formulas -/

/-- The name that a word of a formula gives (C47) is, in capital letters, the name of a variable: `Sound` holds of the formulas written
    with letters, digits and `_`. -/
theorem C68_word {c : Char} {w : Name} (hc : ¬ Lec.Written.Digit c) (hw : ∀ x ∈ c :: w, Lec.Written.NameCh x) :
    checkName .variables (toKey .variables ((c :: w).take 20)) = true := by
  have up : ∀ x, Lec.Written.NameCh x → isTrimC x = false ∧ nameTailOk .variables (toUpperC x) = true ∧
      (¬ Lec.Written.Digit x → nameHeadOk .variables (toUpperC x) = true) := by
    have fin : ∀ n < 128, Lec.Written.NameCh (Char.ofNat n) → isTrimC (Char.ofNat n) = false ∧ nameTailOk .variables (toUpperC (Char.ofNat n)) = true ∧
      (¬ Lec.Written.Digit (Char.ofNat n) → nameHeadOk .variables (toUpperC (Char.ofNat n)) = true) := by decide +kernel
    intro x hx
    have := fin x.toNat (Lec.nameCh_lt hx)
    rw [Char.ofNat_toNat] at this
    exact this hx
  have ht : trim ((c :: w).take 20) = (c :: w).take 20 := trim_eq_self fun d hd => (up d (hw d (List.mem_of_mem_take hd))).1
  rw [show toKey .variables ((c :: w).take 20) = toUpper (trim ((c :: w).take 20)) from rfl, ht, List.take_succ_cons, toUpper, List.map_cons]
  simp only [checkName, Bool.and_eq_true, decide_eq_true_eq, List.all_eq_true, List.length_cons, List.length_map, List.length_take]
  refine ⟨⟨⟨by omega, (up c (hw c (by simp))).2.2 hc⟩, fun d hd => ?_⟩, by omega⟩
  obtain ⟨e, he, rfl⟩ := List.mem_map.mp hd
  exact (up e (hw e (List.mem_cons_of_mem _ (List.mem_of_mem_take he)))).2.1

/-- Equations and identities: the lists give the scalars and the variables that are not the names of objects examined. -/
theorem C68_equations (file : Text → Option Text) (st : Lists.Store) {ty : ObjType} {names : V → Option (List Name)} {db : SMap V} (h0 : db ≠ [])
    (hs : ∀ e ∈ db, ∀ l, names e.2 = some l → ∀ x ∈ l, Coef x ∨ checkName .variables (toKey .variables x) = true) :
    ∃ exo scal, Variables (one names) (fun x => toKey ty x ∈ db.keys) db exo ∧ Scalars (one names) db scal ∧
      (exo.length < 2 ^ 31 → scal.length < 2 ^ 31 → ∃ st', scanEqs ty names db st = .ok ⟨st', true⟩ ∧
        Args.init (LstCalc.world file st') ('$' :: exoName) = .ok (some exo) ∧ Args.init (LstCalc.world file st') ('$' :: scalName) = .ok (some scal) ∧
        ∀ k, k ≠ exoName → k ≠ scalName → (∀ j, k ≠ exoName ++ natToChars j ∧ k ≠ scalName ++ natToChars j) → SMap.find k st' = SMap.find k st) := by
  have hsnd : Sound (one names) db := by
    intro e he f hf
    unfold one at hf
    cases hn : names e.2 with
    | none => rw [hn] at hf; simp at hf; subst hf; simp
    | some l =>
      rw [hn] at hf
      simp only [List.mem_singleton] at hf
      subst hf
      exact ⟨by simp, fun l' h => by cases h; exact hs e he l hn⟩
  obtain ⟨exo, scal, h1, h2, h3⟩ := C68_scan file st (has := fun x => db.has (toKey ty x)) h0 hsnd
  refine ⟨exo, scal, ?_, h2, h3⟩
  have : (fun x => db.has (toKey ty x) = true) = fun x => toKey ty x ∈ db.keys := by
    funext x
    rw [SMap.mem_keys_iff, SMap.has, Option.isSome_iff_exists]
  rw [← this]
  exact h1

/-- Tables: every variable in a cell of a line with cells. -/
theorem C68_tables (file : Text → Option Text) (st : Lists.Store) {names : List Char → Option (List Name)} {db : SMap Asc.Tab} (h0 : db ≠ [])
    (hl : ∀ e ∈ db, ∀ l ∈ e.2.lines, l.type = 110 → ∀ c ∈ l.cells, c.body ≠ .lec none)
    (hs : ∀ t l, names t = some l → ∀ x ∈ l, Coef x ∨ checkName .variables (toKey .variables x) = true) :
    ∃ exo scal, InOrder exo ∧ InOrder scal ∧
      (∀ w, w ∈ exo ↔ ∃ e ∈ db, ∃ l ∈ e.2.lines, l.type = 110 ∧ ∃ c ∈ l.cells, ∃ t xs, c.body = .lec (some t) ∧ names t = some xs ∧
        ∃ x ∈ xs, ¬ Coef x ∧ w = toKey .variables x) ∧
      (∀ w, w ∈ scal ↔ ∃ e ∈ db, ∃ l ∈ e.2.lines, l.type = 110 ∧ ∃ c ∈ l.cells, ∃ t xs, c.body = .lec (some t) ∧ names t = some xs ∧
        w ∈ xs ∧ Coef w) ∧
      (exo.length < 2 ^ 31 → scal.length < 2 ^ 31 → ∃ st', scanTbls names db st = .ok ⟨st', true⟩ ∧
        Args.init (LstCalc.world file st') ('$' :: exoName) = .ok (some exo) ∧ Args.init (LstCalc.world file st') ('$' :: scalName) = .ok (some scal) ∧
        ∀ k, k ≠ exoName → k ≠ scalName → (∀ j, k ≠ exoName ++ natToChars j ∧ k ≠ scalName ++ natToChars j) → SMap.find k st' = SMap.find k st) := by
  have cell : ∀ (t : Asc.Tab) (f : Form), f ∈ tableForms names t ↔ ∃ l ∈ t.lines, l.type = 110 ∧ ∃ c ∈ l.cells, cellForm names c = some f := by
    intro t f
    simp only [tableForms, List.mem_flatMap]
    constructor
    · rintro ⟨l, hl, h⟩
      by_cases h0 : l.type = 110
      · rw [if_neg (by simpa using h0)] at h
        exact ⟨l, hl, h0, List.mem_filterMap.mp h⟩
      · rw [if_pos h0] at h; simp at h
    · rintro ⟨l, hl, h0, h⟩
      exact ⟨l, hl, by rw [if_neg (by simpa using h0)]; exact List.mem_filterMap.mpr h⟩
  have isNames : ∀ (c : Asc.TCell) (xs : List Name), cellForm names c = some (.names xs) ↔ ∃ t, c.body = .lec (some t) ∧ names t = some xs := by
    intro c xs
    unfold cellForm
    constructor
    · intro h
      split at h
      · simp at h
      · simp at h
      · rename_i t ht
        refine ⟨t, ht, ?_⟩
        split at h
        · simp at h
        · rename_i l hl; simp at h; rw [hl, h]
    · rintro ⟨t, ht, hn⟩
      simp [ht, hn]
  have hsnd : Sound (tableForms names) db := by
    intro e he f hf
    obtain ⟨l, hl', h0, c, hc, h⟩ := (cell _ _).mp hf
    constructor
    · rintro rfl
      have := hl e he l hl' h0 c hc
      unfold cellForm at h
      split at h
      · simp at h
      · exact absurd (by assumption) this
      · split at h <;> simp at h
    · rintro xs rfl
      obtain ⟨t, _, hn⟩ := (isNames c xs).mp h
      exact hs t xs hn
  have used : ∀ x, Used (tableForms names) db x ↔ ∃ e ∈ db, ∃ l ∈ e.2.lines, l.type = 110 ∧ ∃ c ∈ l.cells, ∃ t xs, c.body = .lec (some t) ∧
      names t = some xs ∧ x ∈ xs := by
    intro x
    constructor
    · rintro ⟨e, he, xs, hx, hm⟩
      obtain ⟨l, hl', h0, c, hc, h⟩ := (cell _ _).mp hx
      obtain ⟨t, h1, h2⟩ := (isNames c xs).mp h
      exact ⟨e, he, l, hl', h0, c, hc, t, xs, h1, h2, hm⟩
    · rintro ⟨e, he, l, hl', h0, c, hc, t, xs, h1, h2, hm⟩
      exact ⟨e, he, xs, (cell _ _).mpr ⟨l, hl', h0, c, hc, (isNames c xs).mpr ⟨t, h1, h2⟩⟩, hm⟩
  obtain ⟨exo, scal, h1, h2, h3⟩ := C68_scan file st (has := fun _ => false) h0 hsnd
  refine ⟨exo, scal, h1.1, h2.1, fun w => (h1.2 w).trans ⟨?_, ?_⟩, fun w => (h2.2 w).trans ⟨?_, ?_⟩, h3⟩
  · rintro ⟨x, hx, hc, _, hw⟩
    obtain ⟨e, he, l, hl', h0, c, hc', t, xs, h1, h2, hm⟩ := (used x).mp hx
    exact ⟨e, he, l, hl', h0, c, hc', t, xs, h1, h2, x, hm, hc, hw⟩
  · rintro ⟨e, he, l, hl', h0, c, hc', t, xs, h1, h2, x, hm, hc, hw⟩
    exact ⟨x, (used x).mpr ⟨e, he, l, hl', h0, c, hc', t, xs, h1, h2, hm⟩, hc, by simp, hw⟩
  · rintro ⟨hx, hc⟩
    obtain ⟨e, he, l, hl', h0, c, hc', t, xs, h1, h2, hm⟩ := (used w).mp hx
    exact ⟨e, he, l, hl', h0, c, hc', t, xs, h1, h2, hm, hc⟩
  · rintro ⟨e, he, l, hl', h0, c, hc', t, xs, h1, h2, hm, hc⟩
    exact ⟨(used w).mpr ⟨e, he, l, hl', h0, c, hc', t, xs, h1, h2, hm⟩, hc⟩

/-! ## Examples -/

def sN (s : String) : Name := s.toList

/-- Two equations: `C := c1 + c2*Y + G`, `Y := C + x1*I`. -/
def eqs : SMap (List Name) := [(sN "C", [sN "C", sN "c1", sN "c2", sN "Y", sN "G"]), (sN "Y", [sN "Y", sN "C", sN "x1", sN "I"])]

example : eqs ≠ [] ∧ ∀ e ∈ eqs, ∀ l, some e.2 = some l → ∀ x ∈ l, Coef x ∨ checkName .variables (toKey .variables x) = true := by
  refine ⟨by decide, fun e he l h => ?_⟩
  cases h
  revert e
  unfold Coef
  decide +kernel

example : scanEqs .equations some eqs [] = .ok ⟨[(sN "_EXO", sN "G;I"), (sN "_SCAL", sN "c1;c2;x1")], true⟩ := by decide +kernel

/-- A subset: the variable that the other equation defines is in the list. -/
example : scanEqs .equations some (eqs.take 1) [] = .ok ⟨[(sN "_EXO", sN "G;Y"), (sN "_SCAL", sN "c1;c2")], true⟩ := by decide +kernel

/-- `DataScan` "analyses the objects and lists all variables and scalars that they use" (reports_commands.rst 1366-1385): the variables
    with the name of an equation or identity examined are used, but are not in `_EXO`. -/
theorem C68_all_counterexample : ∃ (db : SMap (List Name)) (x : Name), Used (one some) db x ∧ ¬ Coef x ∧
    ∀ st o, scanEqs .equations some db st = .ok o → SMap.find exoName o.store = some (sN "G;I") ∧ x = sN "C" := by
  refine ⟨eqs, sN "C", ⟨(sN "C", [sN "C", sN "c1", sN "c2", sN "Y", sN "G"]), by decide, _, List.mem_singleton_self _, by decide⟩, by unfold Coef; decide, ?_⟩
  intro st o h
  have h1 : scanObjs (one some) (fun x => eqs.has (toKey .equations x)) eqs ⟨[], []⟩ =
      .ok (some ⟨[(sN "G", ()), (sN "I", ())], [(sN "c1", ()), (sN "c2", ()), (sN "x1", ())]⟩) := by decide +kernel
  unfold scanEqs scan at h
  rw [if_neg (by decide), h1, Args.bind_ok] at h
  simp only at h
  have h2 : ∀ st, Lists.split st scalName (SMap.keys [(sN "c1", ()), (sN "c2", ()), (sN "x1", ())]) 200 = .ok ⟨st.insert scalName (sN "c1;c2;x1"), true⟩ := fun st => rfl
  have h3 : ∀ st, Lists.split st exoName (SMap.keys [(sN "G", ()), (sN "I", ())]) 200 = .ok ⟨st.insert exoName (sN "G;I"), true⟩ := fun st => rfl
  rw [h2, Args.bind_ok, h3, Args.bind_ok] at h
  cases h
  exact ⟨SMap.find_insert_self _ _ _, rfl⟩

/-- The names in the formula `A+b*C`; no other formula compiles. -/
def sums (t : List Char) : Option (List Name) := if t = sN "A+b*C" then some [sN "A", sN "b", sN "C"] else none

def table (c : Asc.TBody) : Asc.Tab :=
  { language := 0, gridx := 0, gridy := 0, axis := 0, align := 0, ncols := 2, repeatCols := 1, divider := [],
    lines := [⟨113, 0, false, [⟨.str (sN "A title"), 0⟩]⟩, ⟨110, 0, false, [⟨.str (sN "Sum"), 0⟩, ⟨.lec (some (sN "A+b*C")), 0⟩]⟩,
      ⟨110, 0, false, [⟨.str (sN "Other"), 0⟩, ⟨c, 0⟩]⟩],
    zmin := .nan, zmax := .nan, ymin := .nan, ymax := .nan, attr := 0, box := 0, shadow := 0 }

example : scanTbls sums [(sN "T", table (.str []))] [] = .ok ⟨[(sN "_EXO", sN "A;C"), (sN "_SCAL", sN "b")], true⟩ := by decide +kernel

/-- A formula that does not compile is passed over. -/
example : scanTbls sums [(sN "T", table (.lec (some (sN "A+"))))] [] = .ok ⟨[(sN "_EXO", sN "A;C"), (sN "_SCAL", sN "b")], true⟩ := by decide +kernel

/-- A cell for a formula that is empty, as `TableCell` makes it: nothing is listed. -/
theorem C68_empty_cell_counterexample (st : Lists.Store) : scanTbls sums [(sN "T", table (.lec none))] st = .ok ⟨st, false⟩ := by
  refine C68_refused st ?_ (.inr ⟨_, List.mem_singleton_self _, by decide +kernel⟩)
  intro e he l hl
  rw [List.mem_singleton] at he
  subst he
  have : l = [sN "A", sN "b", sN "C"] := by
    have h : tableForms sums (table (.lec none)) = [.names [sN "A", sN "b", sN "C"], .missing] := by decide +kernel
    rw [h] at hl
    simpa using hl
  subst this
  unfold Coef
  decide +kernel

end Iode.Scan
