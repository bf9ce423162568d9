import Verif.Spec.LstCalc
import Verif.Props.C64
import Verif.Props.C63
import Verif.Lemmas.SMap
import Mathlib.Data.List.Induction

/-!
# C65: the calculus with lists
-/
namespace Iode.LstCalc

open Iode.Args (Text Single Ordinary Means Fit pieces seps Usual)

/-! ## The operations -/

/-- The elements of a list that satisfy `p`, added one after the other. -/
theorem firsts_fold (p : Text → Bool) (l : List Text) : Firsts l (fun w => p w = true) (l.foldl (fun tbl s => if p s then addTbl tbl s else tbl) []) := by
  induction l using List.reverseRecOn with
  | nil => exact ⟨by simp, by simp⟩
  | append_singleton l s ih =>
    obtain ⟨h1, h2⟩ := ih
    rw [List.foldl_append, List.foldl_cons, List.foldl_nil]
    generalize l.foldl (fun tbl s => if p s then addTbl tbl s else tbl) [] = o at *
    have h1' : o.Pairwise (fun x y => (l ++ [s]).idxOf x < (l ++ [s]).idxOf y) := by
      refine h1.imp_of_mem fun {x y} hx hy h => ?_
      rw [List.idxOf_append_of_mem ((h2 x).mp hx).1, List.idxOf_append_of_mem ((h2 y).mp hy).1]
      exact h
    by_cases hp : p s = true
    · rw [if_pos hp]
      unfold addTbl
      by_cases hs : s ∈ o
      · rw [if_pos hs]
        refine ⟨h1', fun w => ?_⟩
        rw [h2 w]
        simp only [List.mem_append, List.mem_singleton]
        constructor
        · rintro ⟨h, h'⟩; exact ⟨Or.inl h, h'⟩
        · rintro ⟨h | rfl, h'⟩
          · exact ⟨h, h'⟩
          · exact (h2 _).mp hs
      · have hsl : s ∉ l := fun h => hs ((h2 s).mpr ⟨h, hp⟩)
        rw [if_neg hs]
        refine ⟨?_, fun w => ?_⟩
        · rw [List.pairwise_append]
          refine ⟨h1', by simp, fun x hx y hy => ?_⟩
          simp only [List.mem_singleton] at hy
          subst hy
          have hxl := ((h2 x).mp hx).1
          rw [List.idxOf_append_of_mem hxl, List.idxOf_append_of_notMem hsl]
          have := List.idxOf_lt_length_iff.mpr hxl
          omega
        · simp only [List.mem_append, List.mem_singleton, h2 w]
          constructor
          · rintro (⟨h, h'⟩ | rfl)
            · exact ⟨Or.inl h, h'⟩
            · exact ⟨Or.inr rfl, hp⟩
          · rintro ⟨h | rfl, h'⟩
            · exact Or.inl ⟨h, h'⟩
            · exact Or.inr rfl
    · rw [if_neg hp]
      refine ⟨h1', fun w => ?_⟩
      rw [h2 w]
      simp only [List.mem_append, List.mem_singleton]
      constructor
      · rintro ⟨h, h'⟩; exact ⟨Or.inl h, h'⟩
      · rintro ⟨h | rfl, h'⟩
        · exact ⟨h, h'⟩
        · exact absurd h' hp

theorem union_gives (a b : List Text) : Gives '+' a b (unionT a b) := by
  refine .union ?_
  have := firsts_fold (fun _ => true) (a ++ b)
  simp only [if_true, List.foldl_append] at this
  refine ⟨this.1, fun w => (this.2 w).trans (by simp)⟩

theorem inter_gives (a b : List Text) : Gives '*' a b (interT a b) := by
  refine .inter ?_
  have := firsts_fold (fun s => b.any (· == s)) a
  refine ⟨this.1, fun w => (this.2 w).trans (by simp)⟩

theorem dif_eq (a b : List Text) : difT a b = a.filter (· ∉ b) := by
  have : ∀ (a acc : List Text), a.foldl (fun tbl s => if b.any (· == s) then tbl else tbl ++ [s]) acc = acc ++ a.filter (· ∉ b) := by
    intro a
    induction a with
    | nil => simp
    | cons s a ih =>
      intro acc
      rw [List.foldl_cons, ih]
      by_cases h : s ∈ b
      · simp [h]
      · simp [h]
  exact (this a []).trans (by simp)

theorem times_eq (a b : List Text) : timesT a b = a.flatMap fun x => b.map (x ++ ·) := by
  have inner : ∀ (x : Text) (b acc : List Text), b.foldl (fun tbl y => tbl ++ [x ++ y]) acc = acc ++ b.map (x ++ ·) := by
    intro x b
    induction b with
    | nil => simp
    | cons y b ih => intro acc; rw [List.foldl_cons, ih]; simp
  have : ∀ (a acc : List Text), a.foldl (fun tbl x => b.foldl (fun tbl y => tbl ++ [x ++ y]) tbl) acc = acc ++ a.flatMap fun x => b.map (x ++ ·) := by
    intro a
    induction a with
    | nil => simp
    | cons s a ih => intro acc; rw [List.foldl_cons, ih, inner]; simp
  exact (this a []).trans (by simp)

/-- The four operations are the only ones, and give what they should. -/
theorem op_gives {op : Char} (h : op ∈ ['+', '*', '-', 'x']) (a b : List Text) : ∃ out, opT op (some a) (some b) = some out ∧ Gives op a b out := by
  simp only [List.mem_cons, List.not_mem_nil, or_false] at h
  rcases h with rfl | rfl | rfl | rfl
  · exact ⟨_, rfl, union_gives a b⟩
  · exact ⟨_, rfl, inter_gives a b⟩
  · exact ⟨difT a b, rfl, dif_eq a b ▸ .dif⟩
  · exact ⟨timesT a b, rfl, times_eq a b ▸ .times⟩

theorem firsts_unique {l : List Text} {p : Text → Prop} {o1 o2 : List Text} (h1 : Firsts l p o1) (h2 : Firsts l p o2) : o1 = o2 := by
  have nd : ∀ {o : List Text}, o.Pairwise (fun x y => l.idxOf x < l.idxOf y) → o.Nodup := fun h => h.imp fun h e => by rw [e] at h; omega
  have hp : o1.Perm o2 := (List.perm_ext_iff_of_nodup (nd h1.1) (nd h2.1)).mpr fun w => (h1.2 w).trans (h2.2 w).symm
  exact hp.eq_of_pairwise (fun x y _ _ hxy hyx => by omega) h1.1 h2.1

/-- What an operation gives is one list. -/
theorem C65_unique {op : Char} {a b o1 o2 : List Text} (h1 : Gives op a b o1) (h2 : Gives op a b o2) : o1 = o2 := by
  cases h1 with
  | union h => cases h2 with | union h' => exact firsts_unique h h'
  | inter h => cases h2 with | inter h' => exact firsts_unique h h'
  | dif => cases h2; rfl
  | times => cases h2; rfl

/-! ## Reading lists -/

theorem usual_seps : Usual seps := by unfold Usual; decide

theorem pieces_sep {sp : List Char} {s : Char} (hs : s ∈ sp) : ∀ {f : Text} {fs : List Text}, (∀ w ∈ f :: fs, Single sp w) →
    pieces sp (f ++ fs.flatMap fun c => s :: c) = f :: fs
  | f, [], h => by
    have := h f (by simp)
    simpa using Args.pieces_end (fun c hc => (this.2.1 c hc).1) this.1
  | f, g :: gs, h => by
    have hf := h f (by simp)
    rw [List.flatMap_cons, List.cons_append, Args.pieces_word hs _ (fun c hc => (hf.2.1 c hc).1) hf.1, pieces_sep hs fun w hw => h w (by simp [List.mem_cons.mp hw])]

theorem fit_sep {sp : List Char} {s : Char} (hs : s ∈ sp) (hq : '"' ∉ sp) {f : Text} {fs : List Text} (h : ∀ w ∈ f :: fs, Single sp w) :
    Fit sp (f ++ fs.flatMap fun c => s :: c) := by
  refine ⟨?_, fun w hw => ?_⟩
  · simp only [List.mem_append, List.mem_flatMap, List.mem_cons, not_or, not_exists, not_and]
    refine ⟨fun hm => ((h f (by simp)).2.1 _ hm).2 rfl, fun w hw => ⟨fun e => hq (e ▸ hs), fun hm => ((h w (by simp [hw])).2.1 _ hm).2 rfl⟩⟩
  · rw [pieces_sep hs h] at hw
    exact (h w hw).2.2

theorem means_words {W : Args.World} {k : Nat} {ws out : List Text} (h : Means W k ws out) : (∀ w ∈ ws, Single W.sp w) → ∀ w ∈ out, Single W.sp w ∧ Ordinary w := by
  induction h with
  | nil k => intro _; simp
  | @word k w ws out ho _ ih =>
    intro hs v hv
    rcases List.mem_cons.mp hv with rfl | hv
    · exact ⟨hs _ (by simp), ho⟩
    · exact ih (fun w hw => hs w (by simp [hw])) v hv
  | list _ hf _ _ ih1 ih2 =>
    intro hs v hv
    rcases List.mem_append.mp hv with hv | hv
    · exact ih1 hf.single v hv
    · exact ih2 (fun w hw => hs w (by simp [hw])) v hv
  | file _ hf _ _ ih1 ih2 =>
    intro hs v hv
    rcases List.mem_append.mp hv with hv | hv
    · exact ih1 hf.single v hv
    · exact ih2 (fun w hw => hs w (by simp [hw])) v hv

theorem means_plain (W : Args.World) (k : Nat) {ws : List Text} (h : ∀ w ∈ ws, Ordinary w) : Means W k ws ws := by
  induction ws with
  | nil => exact .nil k
  | cons w ws ih => exact .word (h w (by simp)) (ih fun w hw => h w (by simp [hw]))

/-- A list that exists and contains words separated in one way gives these words. -/
theorem init_list {W : Args.World} (hu : Usual W.sp) {name : Text} (hn : Single W.sp ('$' :: name)) {t : Text} (hl : W.look name = some t) (hf : Fit W.sp t)
    {ws : List Text} (hp : pieces W.sp t = ws) (ho : ∀ w ∈ ws, Ordinary w) : Args.init W ('$' :: name) = .ok (some ws) := by
  refine Args.C64_arguments hu hn.fit ?_
  rw [Args.pieces_end (fun c hc => (hn.2.1 c hc).1) hn.1]
  have := Means.list (k := 9) (ws := []) hl hf (hp.symm ▸ means_plain W 9 ho) (.nil _)
  simpa [hp] using this

theorem join_sep : ∀ (f : Text) (fs : List Text), Lists.join (f :: fs) = f ++ fs.flatMap fun c => ';' :: c
  | f, [] => by simp [Lists.join]
  | f, g :: gs => by rw [Lists.join, join_sep g gs]; · simp
                     · simp

theorem join_read {ws : List Text} (h : ∀ w ∈ ws, Single seps w) : Fit seps (Lists.join ws) ∧ pieces seps (Lists.join ws) = ws := by
  cases ws with
  | nil => exact ⟨⟨by simp [Lists.join], by simp [Lists.join, Args.pieces_nil]⟩, by simp [Lists.join, Args.pieces_nil]⟩
  | cons f fs =>
    rw [join_sep]
    exact ⟨fit_sep (by decide) (by decide) h, pieces_sep (by decide) h⟩

theorem set_read (file : Text → Option Text) (st : Lists.Store) {res : Text} (hv : checkName .lists (toKey .lists res) = true) (hw : Single seps ('$' :: res))
    {out : List Text} (h : ∀ w ∈ out, Single seps w ∧ Ordinary w) : ∃ st', Lists.setOut st res (Lists.join out) = ⟨st', true⟩ ∧
      Args.init (world file st') ('$' :: res) = .ok (some out) ∧ ∀ k, k ≠ toKey .lists res → SMap.find k st' = SMap.find k st := by
  refine ⟨st.insert (toKey .lists res) (Lists.join out), by simp [Lists.setOut, Lists.put, hv], ?_, fun k hk => SMap.find_insert_ne _ _ hk⟩
  obtain ⟨h1, h2⟩ := join_read fun w hw => (h w hw).1
  exact init_list (W := world file _) usual_seps hw (by simp [world, SMap.find_insert]) h1 h2 fun w hw => (h w hw).2

theorem holds_init {file : Text → Option Text} {st : Lists.Store} {name : Text} {ws : List Text} (h : Holds file st name ws) :
    ∃ t, st.find (toKey .lists name) = some t ∧ Args.init (world file st) t = .ok (some ws) ∧ ∀ w ∈ ws, Single seps w ∧ Ordinary w := by
  obtain ⟨t, h1, h2, h3⟩ := h
  exact ⟨t, h1, Args.C64_arguments (W := world file st) usual_seps h2 h3, means_words h3 h2.single⟩

theorem gives_words {op : Char} {a b out : List Text} (h : Gives op a b out) (ha : ∀ w ∈ a, Single seps w ∧ Ordinary w) (hb : ∀ w ∈ b, Single seps w ∧ Ordinary w)
    (hx : op = 'x' → ∀ u ∈ a, ∀ v ∈ b, (u ++ v).length ≤ 128) : ∀ w ∈ out, Single seps w ∧ Ordinary w := by
  cases h with
  | union h => intro w hw; rcases List.mem_append.mp ((h.2 w).mp hw).1 with h | h; exacts [ha w h, hb w h]
  | inter h => intro w hw; exact ha w ((h.2 w).mp hw).1
  | dif => intro w hw; exact ha w (List.mem_filter.mp hw).1
  | times =>
    intro w hw
    simp only [List.mem_flatMap, List.mem_map] at hw
    obtain ⟨u, hu, v, hv, rfl⟩ := hw
    obtain ⟨⟨h1, h2, _⟩, h4, h5⟩ := ha u hu
    refine ⟨⟨by simp [h1], fun c hc => (List.mem_append.mp hc).elim (h2 c) ((hb v hv).1.2.1 c), hx rfl u hu v hv⟩, ?_⟩
    cases u with
    | nil => exact absurd rfl h1
    | cons c u => exact ⟨by simpa using h4, by simpa using h5⟩

/-- The result of an operation between two lists is a list that means what the operation gives; the other lists do not change. -/
theorem C65_calc {file : Text → Option Text} {st : Lists.Store} {res a b op : Text} {c : Char} {x y : List Text} (hv : checkName .lists (toKey .lists res) = true)
    (hw : Single seps ('$' :: res)) (ha : Holds file st a x) (hb : Holds file st b y) (hop : op.head? = some c) (hc : c ∈ ['+', '*', '-', 'x'])
    (hx : c = 'x' → ∀ u ∈ x, ∀ v ∈ y, (u ++ v).length ≤ 128) :
    ∃ st' out, calcLst file st res a op b = .ok ⟨st', true⟩ ∧ Gives c x y out ∧ Args.init (world file st') ('$' :: res) = .ok (some out) ∧
      ∀ k, k ≠ toKey .lists res → SMap.find k st' = SMap.find k st := by
  obtain ⟨ta, a1, a2, a3⟩ := holds_init ha
  obtain ⟨tb, b1, b2, b3⟩ := holds_init hb
  obtain ⟨out, o1, o2⟩ := op_gives hc x y
  obtain ⟨st', s1, s2, s3⟩ := set_read file st hv hw (gives_words o2 a3 b3 hx)
  refine ⟨st', out, ?_, o2, s2, s3⟩
  have hs : Lists.split st res out (-1) = .ok (Lists.setOut st res (Lists.join out)) := by
    unfold Lists.split
    by_cases h0 : out.length = 0
    · rw [if_pos h0, List.length_eq_zero_iff.mp h0]; rfl
    · rw [if_neg h0, if_pos (Or.inr (by decide))]
  unfold calcLst
  simp only [a1, b1, a2, b2, Args.bind_ok, hop, Option.bind_some, o1]
  rw [hs, s1]

/-- An operation with a list that does not exist, or that is none of the four, changes nothing. -/
theorem C65_refused (file : Text → Option Text) (st : Lists.Store) (res a op b : Text) (h : st.find (toKey .lists a) = none ∨ st.find (toKey .lists b) = none ∨
    ((∃ x, Holds file st a x) ∧ (∃ y, Holds file st b y) ∧ ∀ c, op.head? = some c → c ∉ ['+', '*', '-', 'x'])) : calcLst file st res a op b = .ok ⟨st, false⟩ := by
  rcases h with h | h | ⟨⟨x, hx⟩, ⟨y, hy⟩, ho⟩
  · simp [calcLst, h]
  · unfold calcLst
    split
    · rename_i h' ; rw [h] at h'; simp at h'
    · rfl
  · obtain ⟨ta, a1, a2, _⟩ := holds_init hx
    obtain ⟨tb, b1, b2, _⟩ := holds_init hy
    have : (op.head?.bind fun c => opT c (some x) (some y)) = none := by
      cases hh : op.head? with
      | none => rfl
      | some c =>
        have := ho c hh
        simp only [List.mem_cons, List.not_mem_nil, or_false, not_or] at this
        simp [opT, this]
    simp only [calcLst, a1, b1, a2, b2, Args.bind_ok, this]

/-! ## Sorting and counting -/

theorem leText_trans (a b c : Text) (h1 : leText a b = true) (h2 : leText b c = true) : leText a c = true := by
  simp only [leText, Bool.not_eq_true'] at *
  by_cases hab : a = b
  · rw [hab]; exact h2
  · have h := SMap.nameLt_total (Ne.symm hab) h1
    by_contra hc
    simp only [Bool.not_eq_false] at hc
    have := SMap.nameLt_trans hc h
    rw [this] at h2
    simp at h2

theorem leText_total (a b : Text) : (leText a b || leText b a) = true := by
  unfold leText
  cases h : nameLt b a with
  | false => simp
  | true =>
    cases h' : nameLt a b with
    | false => simp
    | true => have := SMap.nameLt_trans h h'; rw [SMap.nameLt_irrefl] at this; simp at this

/-- Sorting a list: the same words, as often as before, in the order of their characters. -/
theorem C65_sort {file : Text → Option Text} {st : Lists.Store} {inp out : Text} {x : List Text} (hv : checkName .lists (toKey .lists out) = true)
    (hw : Single seps ('$' :: out)) (hi : Holds file st inp x) :
    ∃ st' y, listSort file st inp out = .ok ⟨st', true⟩ ∧ y.Perm x ∧ y.Pairwise (fun u v => ¬ nameLt v u = true) ∧
      Args.init (world file st') ('$' :: out) = .ok (some y) ∧ ∀ k, k ≠ toKey .lists out → SMap.find k st' = SMap.find k st := by
  obtain ⟨t, a1, a2, a3⟩ := holds_init hi
  have hp : (x.insertionSort (leText · ·)).Perm x := List.perm_insertionSort _ x
  obtain ⟨st', s1, s2, s3⟩ := set_read file st hv hw (out := x.insertionSort (leText · ·)) fun w hw => a3 w (hp.mem_iff.mp hw)
  refine ⟨st', x.insertionSort (leText · ·), ?_, hp, ?_, s2, s3⟩
  · simp only [listSort, a1, a2, Args.bind_ok, s1]
  · have : IsTrans Text (leText · ·) := ⟨fun a b c => leText_trans a b c⟩
    have : Std.Total (α := Text) (leText · ·) := ⟨fun a b => by simpa using leText_total a b⟩
    exact (List.pairwise_insertionSort (leText · ·) x).imp fun h => by simpa [leText] using h

/-- Counting the words of a list. -/
theorem C65_count {file : Text → Option Text} {st : Lists.Store} {name : Text} {x : List Text} (h : Holds file st name x) : listCount file st name = .ok x.length := by
  obtain ⟨t, a1, a2, _⟩ := holds_init h
  simp only [listCount, a1, a2, Args.bind_ok, Option.getD_some]

/-! ## Patterns -/

theorem fill_ok {pat by_ : Text} {x : Char} (h1 : pat.length ≤ 20) (h2 : (pat.flatMap fun c => if c = x then by_ else [c]).length ≤ 20) :
    fill pat x by_ = .ok (pat.flatMap fun c => if c = x then by_ else [c]) := by
  unfold fill
  rw [Report.C63_replace, if_neg (by omega)]

/-- What one combination does. -/
def step (ex : Text → Bool) (name : Text) (first : Bool) (st : Lists.Store) (c : Text) : Lists.Store :=
  if ex c then (if first then update st name c else append st name c) else st

/-- All the combinations, the first of them apart. -/
def steps (ex : Text → Bool) (name : Text) : Bool → List Text → Lists.Store → Lists.Store
  | _, [], st => st
  | f, c :: cs, st => steps ex name false cs (step ex name f st c)

theorem steps_append (ex : Text → Bool) (name : Text) : ∀ (f : Bool) (a b : List Text) (st : Lists.Store), a ≠ [] →
    steps ex name f (a ++ b) st = steps ex name false b (steps ex name f a st)
  | f, [], b, st, h => absurd rfl h
  | f, [c], b, st, _ => rfl
  | f, c :: d :: a, b, st, _ => by
    rw [List.cons_append, steps, steps, steps_append ex name false (d :: a) b _ (by simp)]

/-- The text of a combination of a row. -/
def sub (x : Char) (by_ pat : Text) : Text := pat.flatMap fun c => if c = x then by_ else [c]

theorem colLoop_steps (ex : Text → Bool) (name r : Text) (hr : r.length ≤ 20) : ∀ (first j0 : Bool) (ys : List Text) (st : Lists.Store),
    (∀ y ∈ ys, (sub 'y' y r).length ≤ 20) → colLoop ex name first r j0 ys st = .ok (steps ex name (first && j0) (ys.map fun y => sub 'y' y r) st)
  | first, j0, [], st, _ => rfl
  | first, j0, y :: ys, st, h => by
    rw [colLoop, fill_ok hr (h y (by simp)), Args.bind_ok, colLoop_steps ex name r hr first false ys _ fun y hy => h y (by simp [hy])]
    simp only [List.map_cons, steps, step, Bool.and_false, sub]

theorem combos_eq (pat : Text) (xs ys : List Text) : combos pat xs ys = xs.flatMap fun x => ys.map fun y => sub 'y' y (sub 'x' x pat) := rfl

theorem rowLoop_steps (ex : Text → Bool) (name pat : Text) (ys : List Text) (hys : ys ≠ []) (hp : pat.length ≤ 20) : ∀ (i0 : Bool) (xs : List Text) (st : Lists.Store),
    (∀ x ∈ xs, (sub 'x' x pat).length ≤ 20) → (∀ c ∈ combos pat xs ys, c.length ≤ 20) → rowLoop ex name pat ys i0 xs st = .ok (steps ex name i0 (combos pat xs ys) st)
  | i0, [], st, _, _ => rfl
  | i0, x :: xs, st, h, hc => by
    have hc1 : ∀ y ∈ ys, (sub 'y' y (sub 'x' x pat)).length ≤ 20 := fun y hy => hc _ (by rw [combos_eq, List.flatMap_cons]; simp; exact Or.inl ⟨y, hy, rfl⟩)
    rw [rowLoop, fill_ok hp (h x (by simp)), Args.bind_ok]
    simp only [if_neg hys]
    rw [← sub, colLoop_steps ex name _ (h x (by simp)) i0 true ys st hc1, Args.bind_ok,
      rowLoop_steps ex name pat ys hys hp false xs _ (fun x hx => h x (by simp [hx])) (fun c hc' => hc c (by rw [combos_eq, List.flatMap_cons]; exact List.mem_append_right _ hc')),
      Bool.and_true, combos_eq, combos_eq, List.flatMap_cons, steps_append ex name i0 _ _ st (by simp [hys])]

/-- Combinations that are appended to a list. -/
theorem steps_more (ex : Text → Bool) (name : Text) : ∀ (cs : List Text) (st : Lists.Store) {t : Text}, SMap.find (toKey .lists name) st = some t →
    SMap.find (toKey .lists name) (steps ex name false cs st) = some (t ++ (cs.filter ex).flatMap fun c => ',' :: c)
  | [], st, t, h => by simpa [steps] using h
  | c :: cs, st, t, h => by
    rw [steps]
    by_cases hc : ex c = true
    · have h1 : SMap.find (toKey .lists name) (step ex name false st c) = some (t ++ ',' :: c) := by
        simp [step, hc, append, h]
      rw [steps_more ex name cs _ h1, List.filter_cons, if_pos hc]
      simp
    · have h1 : step ex name false st c = st := by simp [step, hc]
      rw [h1, steps_more ex name cs _ h, List.filter_cons, if_neg hc]

/-- Combinations when there is no list yet. -/
theorem steps_new (ex : Text → Bool) (name : Text) : ∀ (f : Bool) (cs : List Text) (st : Lists.Store), SMap.find (toKey .lists name) st = none →
    ∀ {g : Text} {gs : List Text}, cs.filter ex = g :: gs → SMap.find (toKey .lists name) (steps ex name f cs st) = some (g ++ gs.flatMap fun c => ',' :: c)
  | _, [], _, _, _, _, h => by simp at h
  | f, c :: cs, st, h, g, gs, hg => by
    rw [steps]
    by_cases hc : ex c = true
    · rw [List.filter_cons, if_pos hc] at hg
      simp only [List.cons.injEq] at hg
      obtain ⟨rfl, hgs⟩ := hg
      have h1 : SMap.find (toKey .lists name) (step ex name f st c) = some c := by
        cases f <;> simp [step, hc, append, update, h]
      rw [steps_more ex name cs _ h1, hgs]
    · have h1 : step ex name f st c = st := by simp [step, hc]
      rw [h1]
      rw [List.filter_cons, if_neg hc] at hg
      exact steps_new ex name false cs st h hg

theorem steps_other (ex : Text → Bool) (name : Text) {k : Text} (hk : k ≠ toKey .lists name) : ∀ (f : Bool) (cs : List Text) (st : Lists.Store),
    SMap.find k (steps ex name f cs st) = SMap.find k st
  | _, [], _ => rfl
  | f, c :: cs, st => by
    rw [steps, steps_other ex name hk]
    unfold step update append
    split
    · split
      · exact SMap.find_insert_ne _ _ hk
      · split <;> exact SMap.find_insert_ne _ _ hk
    · rfl

theorem steps_none (ex : Text → Bool) (name : Text) : ∀ (f : Bool) (cs : List Text) (st : Lists.Store), cs.filter ex = [] → steps ex name f cs st = st
  | _, [], _, _ => rfl
  | f, c :: cs, st, h => by
    have hc : ¬ ex c = true := fun e => by simp [e] at h
    rw [List.filter_cons, if_neg hc] at h
    rw [steps, show step ex name f st c = st by simp [step, hc], steps_none ex name false cs st h]

/-- A pattern with two dimensions: when there is no list of that name, or the first combination exists, the list contains the combinations that exist, row by
row; without any, nothing changes. -/
theorem C65_pattern (file : Text → Option Text) (ex : Text → Bool) (st : Lists.Store) {name pat : Text} {xs ys : List Text} (hw : Single seps ('$' :: name))
    (hx : xs ≠ []) (hy : ys ≠ []) (hp : pat.length ≤ 20) (hr : ∀ x ∈ xs, (sub 'x' x pat).length ≤ 20) (hc : ∀ c ∈ combos pat xs ys, c.length ≤ 20)
    (hs : ∀ c ∈ combos pat xs ys, ex c = true → Single seps c ∧ Ordinary c)
    (h0 : st.find (toKey .lists name) = none ∨ ∀ c, (combos pat xs ys).head? = some c → ex c = true) :
    ∃ st', pattern ex st name pat xs ys = .ok (some st') ∧ (∀ k, k ≠ toKey .lists name → SMap.find k st' = SMap.find k st) ∧
      ((combos pat xs ys).filter ex = [] → st' = st) ∧
      ((combos pat xs ys).filter ex ≠ [] → Args.init (world file st') ('$' :: name) = .ok (some ((combos pat xs ys).filter ex))) := by
  refine ⟨steps ex name true (combos pat xs ys) st, ?_, fun k hk => steps_other ex name hk _ _ _, fun h => steps_none ex name _ _ _ h, fun hne => ?_⟩
  · rw [pattern, if_neg hx, rowLoop_steps ex name pat ys hy hp true xs st hr hc]
    rfl
  · obtain ⟨g, gs, hg⟩ := List.exists_cons_of_ne_nil hne
    have key : SMap.find (toKey .lists name) (steps ex name true (combos pat xs ys) st) = some (g ++ gs.flatMap fun c => ',' :: c) := by
      rcases h0 with h0 | h0
      · exact steps_new ex name true _ st h0 hg
      · cases hcs : combos pat xs ys with
        | nil => rw [hcs] at hne; simp at hne
        | cons c cs =>
          have he := h0 c (by rw [hcs]; rfl)
          rw [hcs, List.filter_cons, if_pos he] at hg
          simp only [List.cons.injEq] at hg
          obtain ⟨rfl, rfl⟩ := hg
          rw [steps]
          exact steps_more ex name cs _ (by simp [step, he, update])
    have hall : ∀ w ∈ g :: gs, Single seps w ∧ Ordinary w := fun w hw => by
      rw [← hg, List.mem_filter] at hw
      exact hs w hw.1 hw.2
    rw [hg]
    exact init_list (W := world file _) usual_seps hw key (fit_sep (sp := seps) (by decide) (by decide) fun w hw => (hall w hw).1)
      (pieces_sep (sp := seps) (by decide) fun w hw => (hall w hw).1) fun w hw => (hall w hw).2

/-! ## Examples and what is not so -/

def noFile : Text → Option Text := fun _ => none

/-- `A` = "X;Y;Z", `B` = "Z,T X", `R` = "OLD", `C` = "$NO", `E` = "". -/
def lists : Lists.Store := [("A".toList, "X;Y;Z;X".toList), ("B".toList, "Z,T X".toList), ("C".toList, "$NO".toList), ("E".toList, []), ("R".toList, "OLD".toList)]

/-- The list `R` after a command. -/
def after (o : Res Lists.Out) : Option (Bool × Option Text) :=
  match o with
  | .ok o => some (o.good, SMap.find "R".toList o.store)
  | _ => none

example : Holds noFile lists "A".toList ["X".toList, "Y".toList, "Z".toList, "X".toList] := by
  refine ⟨"X;Y;Z;X".toList, by decide, by unfold Fit; decide +kernel, ?_⟩
  rw [show pieces seps "X;Y;Z;X".toList = ["X".toList, "Y".toList, "Z".toList, "X".toList] by decide +kernel]
  exact means_plain _ _ (by unfold Ordinary; decide)

example : checkName .lists (toKey .lists "r".toList) = true ∧ Single seps ('$' :: "r".toList) := by unfold Single; decide +kernel

example : after (calcLst noFile lists "r".toList "a".toList "+".toList "B".toList) = some (true, some "X;Y;Z;T".toList) := by decide +kernel
example : after (calcLst noFile lists "R".toList "A".toList "*".toList "B".toList) = some (true, some "X;Z".toList) := by decide +kernel
example : after (calcLst noFile lists "R".toList "A".toList "-".toList "B".toList) = some (true, some "Y".toList) := by decide +kernel
example : after (calcLst noFile lists "R".toList "B".toList "x".toList "B".toList) = some (true, some "ZZ;ZT;ZX;TZ;TT;TX;XZ;XT;XX".toList) := by decide +kernel
example : after (calcLst noFile lists "R".toList "A".toList "/".toList "B".toList) = some (false, some "OLD".toList) := by decide +kernel
example : after (listSort noFile lists "A".toList "R".toList) = some (true, some "X;X;Y;Z".toList) := by decide +kernel
example : listCount noFile lists "A".toList = .ok 4 := by decide +kernel

/-- The variables `R1C1` and `R2C1` exist. -/
def some2 (c : Text) : Bool := c = "R1C2".toList || c = "R2C1".toList

def patternR (ex : Text → Bool) (st : Lists.Store) : Res (Option (Option Text)) :=
  (pattern ex st "R".toList "xy".toList ["R1".toList, "R2".toList] ["C1".toList, "C2".toList]).bind fun o => .ok (o.map fun st => SMap.find "R".toList st)

example : patternR some2 [] = .ok (some (some "R1C2,R2C1".toList)) := by decide +kernel
example : patternR (fun _ => true) lists = .ok (some (some "R1C1,R1C2,R2C1,R2C2".toList)) := by decide +kernel

/-- With a list that contains the name of one that does not exist, the result is an empty list and the command succeeds. -/
theorem C65_unknown_counterexample : after (calcLst noFile lists "R".toList "A".toList "+".toList "C".toList) = some (true, some []) ∧
    after (calcLst noFile lists "R".toList "A".toList "-".toList "C".toList) = some (true, some []) ∧ listCount noFile lists "C".toList = .ok 0 := by decide +kernel

/-- The difference keeps the words that come twice, unlike the union and the intersection. -/
theorem C65_twice_counterexample : after (calcLst noFile lists "R".toList "A".toList "-".toList "E".toList) = some (true, some "X;Y;Z;X".toList) ∧
    after (calcLst noFile lists "R".toList "A".toList "+".toList "E".toList) = some (true, some "X;Y;Z".toList) := by decide +kernel

/-- Only the first character of the operation is read. -/
theorem C65_operation_counterexample : after (calcLst noFile lists "R".toList "A".toList "-+*".toList "B".toList) = some (true, some "Y".toList) := by decide +kernel

/-- Counting the words of a list that does not exist is an exception, not -1. -/
theorem C65_count_counterexample : listCount noFile lists "NO".toList = .err := by decide +kernel

/-- When the first combination does not exist, the others are added to what the list contains. -/
theorem C65_pattern_kept_counterexample : patternR some2 lists = .ok (some (some "OLD,R1C2,R2C1".toList)) := by decide +kernel

/-- With one dimension the combinations need not exist. -/
theorem C65_pattern_one_counterexample : ((pattern (fun _ => false) lists "R".toList "Ax".toList ["1".toList, "2".toList] []).bind fun o =>
    .ok (o.map fun st => SMap.find "R".toList st)) = .ok (some (some "A1,A2".toList)) := by decide +kernel

/-- A pattern or a combination of more than 20 characters does not fit its array. -/
theorem C65_pattern_long_counterexample : pattern (fun _ => false) lists "R".toList "xxx".toList ["ABCDEFG".toList] ["1".toList] = .ub := by decide +kernel

end Iode.LstCalc
