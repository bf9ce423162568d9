import Verif.Lemmas.EstSave
import Verif.Spec.Args

/-!
# C77: an estimation saves its results in the equations it estimates, in scalars and in variables, and changes nothing else
-/
namespace Iode.EstSave

open Iode.Args (Text pieces)
open DataCmd (Out loop)

variable {F K : Type}

/-- The equations that are estimated with an equation: its block, or itself. -/
def together (name : Text) (e : Eqn F) : List Text := if pieces [' ', ',', ';'] e.block = [] then [name] else pieces [' ', ',', ';'] e.block

/-- The estimation of an equation `e` with the others of its block on the sample `s` has found `r`: `ms` are the equations with their LEC. -/
structure Ran (g : Eng F K) (met : Int) (s : Sample) (st : St F K) (name : Text) (e : Eqn F) (ms : List (Text × Text)) (off : Int) (scls : SMap (Scl K)) (r : Found F K) : Prop where
  known : st.eqs.find (toKey .equations name) = some e
  names : ms.map (·.1) = together name e
  lecs : ∀ p ∈ ms, ∃ e', st.eqs.find (toKey .equations p.1) = some e' ∧ e'.lec = p.2
  start : s.start.difference g.first = .ok off
  found : g.est ⟨ms.map (·.1), ms.map (·.2), pieces [',', ';'] e.instruments, if met < 0 then e.method else met, s⟩ st.scls st.vars = (scls, some r)

/-- All equations of the block that exist are in the database that is estimated. -/
def Inside (st : St F K) (name : Text) : Prop :=
  ∀ e, st.eqs.find (toKey .equations name) = some e → ∀ w ∈ together name e, (∃ e', st.eqs.find (toKey .equations w) = some e') → toKey .equations w ∈ st.dbe

/-- The equation is in its own block. -/
def Own (st : St F K) (name : Text) : Prop :=
  ∀ e, st.eqs.find (toKey .equations name) = some e → ∃ w ∈ together name e, toKey .equations w = toKey .equations name

theorem cut_pieces (seps : Text) (t : Text) : cut seps t = pieces seps t := by
  unfold cut
  rw [RepFn.vtoms_words _ _ _ (by omega)]
  rfl

theorem sqz_self : ∀ {w : Text}, ' ' ∉ w → RepFn.sqzText w = w
  | [], _ => rfl
  | c :: w, h => by
    rw [RepFn.sqzText, if_pos (by rintro rfl; simp at h), sqz_self (by simp at h; exact h.2)]

theorem piece_chars {seps t w : Text} (h : w ∈ pieces seps t) : ∀ c ∈ w, c ∉ seps := by
  unfold pieces at h
  have hm := (List.mem_filter.mp h).1
  clear h
  induction t generalizing w with
  | nil => simp at hm; simp [hm]
  | cons c t ih =>
    rw [List.splitOnP_cons] at hm
    split at hm
    · rcases List.mem_cons.mp hm with rfl | hm
      · simp
      · exact ih hm
    · rename_i hc
      cases e : t.splitOnP (· ∈ seps) with
      | nil => exact absurd e (List.splitOnP_ne_nil _ _)
      | cons x l =>
        rw [e] at hm ih
        simp only [List.modifyHead_cons, List.mem_cons] at hm
        rcases hm with rfl | hm
        · intro d hd
          rcases List.mem_cons.mp hd with rfl | hd
          · simpa using hc
          · exact ih (w := x) (by simp) d hd
        · exact ih (by simp [hm])

theorem members_some {eqs : SMap (Eqn F)} : ∀ {ws : List Text} {ms : List (Text × Text)}, (∀ w ∈ ws, ' ' ∉ w) → members eqs ws = some ms →
    ms.map (·.1) = ws ∧ ∀ p ∈ ms, ∃ e', eqs.find (toKey .equations p.1) = some e' ∧ e'.lec = p.2
  | [], ms, _, h => by
    injection h with h
    subst h
    exact ⟨rfl, by simp⟩
  | w :: ws, ms, hw, h => by
    unfold members at h
    rw [sqz_self (hw w (by simp))] at h
    cases he : eqs.find (toKey .equations w) with
    | none => rw [he] at h; cases h
    | some e =>
      rw [he] at h
      simp only [] at h
      cases hm : members eqs ws with
      | none => rw [hm] at h; cases h
      | some l =>
        rw [hm] at h
        injection h with h
        subst h
        obtain ⟨a, b⟩ := members_some (fun v hv => hw v (by simp [hv])) hm
        refine ⟨by simp [a], fun p hp => ?_⟩
        rcases List.mem_cons.mp hp with rfl | hp
        · exact ⟨e, he, rfl⟩
        · exact b p hp

theorem members_none {eqs : SMap (Eqn F)} : ∀ {ws : List Text}, (∀ w ∈ ws, ' ' ∉ w) → (∃ w ∈ ws, eqs.find (toKey .equations w) = none) → members eqs ws = none
  | [], _, h => by simp at h
  | w :: ws, hw, h => by
    unfold members
    rw [sqz_self (hw w (by simp))]
    cases he : eqs.find (toKey .equations w) with
    | none => rfl
    | some e =>
      simp only []
      rw [members_none fun v hv => hw v (by simp [hv])]
      · rfl
      · obtain ⟨v, hv, e2⟩ := h
        rcases List.mem_cons.mp hv with rfl | hv
        · rw [he] at e2; cases e2
        · exact ⟨v, hv, e2⟩

theorem no_blank {t : Text} : ∀ w ∈ pieces [' ', ',', ';'] t, ' ' ∉ w := fun _ hw hb => piece_chars hw _ hb (by simp)

/-- The state after the tests of the equation are set to zero. -/
def zeroed (g : Eng F K) (st : St F K) (name : Text) (e : Eqn F) : St F K :=
  { st with eqs := st.eqs.insert (toKey .equations name) { e with tests := List.replicate 20 g.zero } }

theorem zeroed_find {g : Eng F K} {st : St F K} {name : Text} {e : Eqn F} (he : st.eqs.find (toKey .equations name) = some e) (k : Text) :
    (zeroed g st name e).eqs.find k = (st.eqs.find k).map fun e' => if k = toKey .equations name then { e' with tests := List.replicate 20 g.zero } else e' := by
  unfold zeroed
  simp only []
  rw [SMap.find_insert]
  by_cases hk : k = toKey .equations name
  · simp only [if_pos hk]
    rw [hk, he]
    rfl
  · simp only [if_neg hk]
    cases st.eqs.find k <;> rfl

theorem blockOf_some {g : Eng F K} {st : St F K} {name : Text} {e : Eqn F} {ms : List (Text × Text)} (he : st.eqs.find (toKey .equations name) = some e)
    (h : blockOf (zeroed g st name e).eqs name e = some ms) : ms.map (·.1) = together name e ∧ ∀ p ∈ ms, ∃ e', st.eqs.find (toKey .equations p.1) = some e' ∧ e'.lec = p.2 := by
  unfold blockOf at h
  unfold together
  rw [cut_pieces] at h
  split at h
  · rename_i hb
    rw [if_pos hb]
    injection h with h
    subst h
    exact ⟨rfl, by simp only [List.mem_singleton]; rintro p rfl; exact ⟨e, he, rfl⟩⟩
  · rename_i hb
    rw [if_neg hb]
    obtain ⟨a, b⟩ := members_some no_blank h
    refine ⟨a, fun p hp => ?_⟩
    obtain ⟨e', h1, h2⟩ := b p hp
    rw [zeroed_find he] at h1
    cases h3 : st.eqs.find (toKey .equations p.1) with
    | none => rw [h3] at h1; cases h1
    | some e'' =>
      rw [h3] at h1
      injection h1 with h1
      refine ⟨e'', rfl, ?_⟩
      rw [← h2, ← h1]
      split <;> rfl

/-- What one round does, by its outcome. -/
theorem estOne_cases {g : Eng F K} {met : Int} {s : Sample} {st : St F K} {name : Text} (hs : name ∉ st.seen) :
    (estOne g met s st name = .failed st ∧ (toKey .equations name ∉ st.dbe ∨ st.eqs.find (toKey .equations name) = none)) ∨
    ∃ e, st.eqs.find (toKey .equations name) = some e ∧ toKey .equations name ∈ st.dbe ∧
      ((∃ scls, estOne g met s st name = .failed { zeroed g st name e with scls := scls }) ∨ estOne g met s st name = .thrown (zeroed g st name e) ∨ estOne g met s st name = .ub ∨
      ∃ ms off scls r st', Ran g met s st name e ms off scls r ∧ saveAll g (if met < 0 then e.method else met) s off r 0 ms { zeroed g st name e with scls := scls } = .ok st' ∧
        estOne g met s st name = .done st') := by
  unfold estOne
  simp only []
  rw [if_neg hs]
  by_cases hd : toKey .equations name ∈ st.dbe
  · rw [if_neg (by simpa using hd)]
    cases he : st.eqs.find (toKey .equations name) with
    | none => exact .inl ⟨rfl, .inr rfl⟩
    | some e =>
      refine .inr ⟨e, rfl, hd, ?_⟩
      simp only []
      by_cases hn : s.nb < 1
      · rw [if_pos hn]
        exact .inl ⟨st.scls, rfl⟩
      · rw [if_neg hn]
        cases hb : blockOf (st.eqs.insert (toKey .equations name) { e with tests := List.replicate 20 g.zero }) name e with
        | none => exact .inr (.inr (.inl rfl))
        | some ms =>
          cases ho : s.start.difference g.first with
          | err => exact .inr (.inl rfl)
          | ub => exact .inr (.inr (.inl rfl))
          | ok off =>
            obtain ⟨b1, b2⟩ := blockOf_some (g := g) he hb
            simp only []
            rcases hr : g.est ⟨ms.map (·.1), ms.map (·.2), cut [',', ';'] e.instruments, if met < 0 then e.method else met, s⟩ st.scls st.vars with ⟨scls, - | r⟩
            · exact .inl ⟨scls, by simp only [hr]; rfl⟩
            · simp only [hr]
              cases hv : saveAll g (if met < 0 then e.method else met) s off r 0 ms { zeroed g st name e with scls := scls } with
              | ok st' =>
                refine .inr (.inr (.inr ⟨ms, off, scls, r, st', ⟨he, b1, b2, ho, by rw [← cut_pieces]; exact hr⟩, hv, ?_⟩))
                unfold zeroed at hv
                rw [hv]
              | err =>
                unfold zeroed at hv
                rw [hv]
                exact .inr (.inr (.inl rfl))
              | ub =>
                unfold zeroed at hv
                rw [hv]
                exact .inr (.inr (.inl rfl))
  · rw [if_pos hd]
    exact .inl ⟨rfl, .inl hd⟩

theorem here_of {g : Eng F K} {met : Int} {s : Sample} {st : St F K} {name : Text} {e : Eqn F} {ms : List (Text × Text)} {off : Int} {scls : SMap (Scl K)} {r : Found F K}
    (hin : Inside st name) (h : Ran g met s st name e ms off scls r) : Here { zeroed g st name e with scls := scls } ms := by
  intro p hp
  obtain ⟨e', h1, h2⟩ := h.lecs p hp
  refine ⟨hin e h.known p.1 (by rw [← h.names]; exact List.mem_map.mpr ⟨p, hp, rfl⟩) ⟨e', h1⟩, ?_⟩
  show ∃ x, (zeroed g st name e).eqs.find _ = some x ∧ _
  rw [zeroed_find h.known, h1]
  refine ⟨_, rfl, ?_⟩
  rw [← h2]
  simp only []
  split <;> rfl

/-! ## One block -/

/-- The equations after the results are saved: those of the block have the results and keep the rest, all others stay; only if the equation is not in its own block its tests are zero. -/
def EqsSaved (g : Eng F K) (s : Sample) (m : Int) (r : Found F K) (name : Text) (block : List Text) (old new : SMap (Eqn F)) : Prop :=
  ∀ k, (∃ i w e, block[i]? = some w ∧ toKey .equations w = k ∧ old.find k = some e ∧
      new.find k = some { e with sample := some s, method := if 0 ≤ m ∧ m < 5 then m else 0, date := g.today, tests := (List.range 11).map (r.test i) ++ g.rest }) ∨
    ((∀ w ∈ block, toKey .equations w ≠ k) ∧ k ≠ toKey .equations name ∧ new.find k = old.find k) ∨
    ((∀ w ∈ block, toKey .equations w ≠ k) ∧ k = toKey .equations name ∧ new.find k = (old.find k).map fun e => { e with tests := List.replicate 20 g.zero })

/-- The scalars: `e<i>_<test>` for each equation, the others as the estimation left them. -/
def SclsSaved (g : Eng F K) (n : Nat) (r : Found F K) (count : Nat) (old new : SMap (Scl K)) : Prop :=
  (∀ i, i < count → ∀ p ∈ shown g r i n, new.find ('e' :: (natToChars i ++ '_' :: p.1)) = some ⟨p.2, g.one, none⟩) ∧
  ∀ k, (∀ i, i < count → ∀ t ∈ shownNames, k ≠ 'e' :: (natToChars i ++ '_' :: t)) → new.find k = old.find k

/-- A vector has the values from position `off` on and no values elsewhere. -/
def Holds (nb : Nat) (off : Int) (n : Nat) (row : Nat → K) (v : List (Option K)) : Prop :=
  v.length = nb ∧ ∀ i : Nat, i < nb → v[i]? = some (if off ≤ (i : Int) ∧ (i : Int) < off + n then some (row ((i : Int) - off).toNat) else none)

/-- The variables: `_YCALC<i>`, `_YOBS<i>` and `_YRES<i>` for each equation, the others stay. -/
def VarsSaved (g : Eng F K) (off : Int) (n : Nat) (r : Found F K) (count : Nat) (old new : SMap (List (Option K))) : Prop :=
  (∀ i, i < count → (∃ v, new.find ("_YCALC".toList ++ natToChars i) = some v ∧ Holds g.nb off n (r.fit i) v) ∧ (∃ v, new.find ("_YOBS".toList ++ natToChars i) = some v ∧ Holds g.nb off n (r.obs i) v) ∧
    ∃ v, new.find ("_YRES".toList ++ natToChars i) = some v ∧ Holds g.nb off n (r.res i) v) ∧
  ∀ k, (∀ i, i < count → ∀ b ∈ ["_YCALC".toList, "_YOBS".toList, "_YRES".toList], k ≠ b ++ natToChars i) → new.find k = old.find k

theorem holds_onSample (g : Eng F K) (off : Int) (n : Nat) (row : Nat → K) : Holds g.nb off n row (onSample g off n row) := by
  unfold onSample
  refine ⟨by simp, fun i hi => ?_⟩
  rw [List.getElem?_map, List.getElem?_range hi]
  rfl

/-- An estimation that succeeds: what it asked for, and where the results are. -/
theorem C77_saved {g : Eng F K} {met : Int} {s : Sample} {st st' : St F K} {name : Text} (hin : Inside st name) (hs : name ∉ st.seen) (h : estOne g met s st name = .done st') :
    ∃ e ms off scls r, Ran g met s st name e ms off scls r ∧ EqsSaved g s (if met < 0 then e.method else met) r name (together name e) st.eqs st'.eqs ∧
      SclsSaved g s.nb.toNat r (together name e).length scls st'.scls ∧ VarsSaved g off s.nb.toNat r (together name e).length st.vars st'.vars := by
  rcases estOne_cases (g := g) (met := met) (s := s) hs with ⟨h1, -⟩ | ⟨e, he, hd, ⟨scls, h1⟩ | h1 | h1 | ⟨ms, off, scls, r, st2, hr, hv, h1⟩⟩
  · rw [h] at h1; cases h1
  · rw [h] at h1; cases h1
  · rw [h] at h1; cases h1
  · rw [h] at h1; cases h1
  · rw [h] at h1
    injection h1 with h1
    subst h1
    obtain ⟨-, -, q⟩ := saveAll_eqs ms 0 _ _ (here_of hin hr) hv
    obtain ⟨q3, q4⟩ := saveAll_scls ms 0 _ _ hv
    obtain ⟨q5, q6⟩ := saveAll_vars ms 0 _ _ hv
    have hl : ms.length = (together name e).length := by rw [← hr.names]; simp
    rw [hl] at q3 q4 q5 q6
    refine ⟨e, ms, off, scls, r, hr, fun k => ?_, ⟨fun i hi p hp => ?_, fun k hk => ?_⟩, ⟨fun i hi => ?_, fun k hk => ?_⟩⟩
    · rcases q k with ⟨i, w, l, e', a1, a2, a3, a4⟩ | ⟨a1, a2⟩
      · left
        have hw : (together name e)[i]? = some w := by rw [← hr.names, List.getElem?_map, a1]; rfl
        have a3' : (zeroed g st name e).eqs.find k = some e' := a3
        rw [zeroed_find he] at a3'
        rw [Nat.zero_add] at a4
        cases h3 : st.eqs.find k with
        | none => rw [h3] at a3'; cases a3'
        | some e'' =>
          rw [h3] at a3'
          injection a3' with a3'
          refine ⟨i, w, e'', hw, a2, rfl, ?_⟩
          rw [a4, ← a3']
          by_cases hk : k = toKey .equations name
          · simp only [if_pos hk]
            rfl
          · simp only [if_neg hk]
            rfl
      · right
        have a2' : st'.eqs.find k = (zeroed g st name e).eqs.find k := a2
        rw [zeroed_find he] at a2'
        have hb : ∀ w ∈ together name e, toKey .equations w ≠ k := by
          intro w hw
          rw [← hr.names] at hw
          obtain ⟨p, hp, rfl⟩ := List.mem_map.mp hw
          exact a1 p hp
        by_cases hk : k = toKey .equations name
        · right
          refine ⟨hb, hk, ?_⟩
          rw [a2']
          simp only [if_pos hk]
        · left
          refine ⟨hb, hk, ?_⟩
          rw [a2']
          simp only [if_neg hk]
          cases st.eqs.find k <;> rfl
    · have := q3 i hi p (by rw [Nat.zero_add]; exact hp)
      rwa [Nat.zero_add] at this
    · exact q4 k fun i hi t ht => by rw [Nat.zero_add]; exact hk i hi t ht
    · have := fun p hp => q5 i hi p hp
      rw [Nat.zero_add] at this
      exact ⟨⟨_, this _ (.head _), holds_onSample _ _ _ _⟩, ⟨_, this _ (.tail _ (.head _)), holds_onSample _ _ _ _⟩, ⟨_, this _ (.tail _ (.tail _ (.head _))), holds_onSample _ _ _ _⟩⟩
    · exact q6 k fun i hi b hb => by rw [Nat.zero_add]; exact hk i hi b hb

/-- An estimation that fails sets the tests of the equation to zero and changes nothing else in equations and variables. -/
theorem C77_failed {g : Eng F K} {met : Int} {s : Sample} {st st' : St F K} {name : Text} (h : estOne g met s st name = .failed st' ∨ estOne g met s st name = .thrown st') :
    st'.vars = st.vars ∧ st'.dbe = st.dbe ∧ ∀ k, st'.eqs.find k = st.eqs.find k ∨ k = toKey .equations name ∧ st'.eqs.find k = (st.eqs.find k).map fun e => { e with tests := List.replicate 20 g.zero } := by
  have hs : name ∉ st.seen := by
    intro hs
    unfold estOne at h
    simp only [] at h
    rw [if_pos hs] at h
    rcases h with h | h <;> cases h
  have hz : ∀ e, st.eqs.find (toKey .equations name) = some e → ∀ k, (zeroed g st name e).eqs.find k = st.eqs.find k ∨
      k = toKey .equations name ∧ (zeroed g st name e).eqs.find k = (st.eqs.find k).map fun e => { e with tests := List.replicate 20 g.zero } := by
    intro e he k
    rw [zeroed_find he]
    by_cases hk : k = toKey .equations name
    · right
      simp only [if_pos hk]
      exact ⟨hk, trivial⟩
    · left
      simp only [if_neg hk]
      cases st.eqs.find k <;> rfl
  rcases estOne_cases (g := g) (met := met) (s := s) hs with ⟨h1, -⟩ | ⟨e, he, hd, ⟨scls, h1⟩ | h1 | h1 | ⟨ms, off, scls, r, st2, hr, hv, h1⟩⟩
  · rw [h1] at h
    rcases h with h | h
    · injection h with h
      subst h
      exact ⟨rfl, rfl, fun k => .inl rfl⟩
    · cases h
  · rw [h1] at h
    rcases h with h | h
    · injection h with h
      subst h
      exact ⟨rfl, rfl, hz e he⟩
    · cases h
  · rw [h1] at h
    rcases h with h | h
    · cases h
    · injection h with h
      subst h
      exact ⟨rfl, rfl, hz e he⟩
  · rw [h1] at h
    rcases h with h | h <;> cases h
  · rw [h1] at h
    rcases h with h | h <;> cases h

/-! ## Several equations -/

/-- The state an outcome leaves, if it is not undefined. -/
def Leaves (o : Out (St F K)) (st : St F K) : Prop := o = .done st ∨ o = .failed st ∨ o = .thrown st

theorem together_texts {e e' : Eqn F} (h : texts e = texts e') (name : Text) : together name e = together name e' := by
  unfold together
  have : e.block = e'.block := congrArg (fun t => t.2.2.2.2) h
  rw [this]

/-- The texts of all equations are the same. -/
def Same (st st' : St F K) : Prop := st'.dbe = st.dbe ∧ ∀ k, (st'.eqs.find k).map texts = (st.eqs.find k).map texts

theorem same_find {st st' : St F K} (h : Same st st') {k : Text} {e' : Eqn F} (he : st'.eqs.find k = some e') : ∃ e, st.eqs.find k = some e ∧ texts e = texts e' := by
  have := h.2 k
  rw [he] at this
  cases h1 : st.eqs.find k with
  | none => rw [h1] at this; cases this
  | some e => rw [h1] at this; injection this with this; exact ⟨e, rfl, this.symm⟩

theorem same_find' {st st' : St F K} (h : Same st st') {k : Text} {e : Eqn F} (he : st.eqs.find k = some e) : ∃ e', st'.eqs.find k = some e' ∧ texts e = texts e' := by
  have := h.2 k
  rw [he] at this
  cases h1 : st'.eqs.find k with
  | none => rw [h1] at this; cases this
  | some e => rw [h1] at this; injection this with this; exact ⟨e, rfl, this.symm⟩

theorem inside_same {st st' : St F K} (h : Same st st') {name : Text} (hi : Inside st name) : Inside st' name := by
  intro e' he' w hw ⟨x, hx⟩
  obtain ⟨e, he, ht⟩ := same_find h he'
  obtain ⟨y, hy, -⟩ := same_find h hx
  rw [h.1]
  exact hi e he w (by rw [together_texts ht]; exact hw) ⟨y, hy⟩

theorem own_same {st st' : St F K} (h : Same st st') {name : Text} (hi : Own st name) : Own st' name := by
  intro e' he'
  obtain ⟨e, he, ht⟩ := same_find h he'
  rw [← together_texts ht]
  exact hi e he

theorem estOne_same {g : Eng F K} {met : Int} {s : Sample} {st st' : St F K} {name : Text} (hin : Inside st name) (h : Leaves (estOne g met s st name) st') : Same st st' := by
  rcases h with h | h
  · by_cases hs : name ∈ st.seen
    · unfold estOne at h
      simp only [] at h
      rw [if_pos hs] at h
      injection h with h
      subst h
      exact ⟨rfl, fun k => rfl⟩
    · rcases estOne_cases (g := g) (met := met) (s := s) hs with ⟨h1, -⟩ | ⟨e, he, hd, ⟨scls, h1⟩ | h1 | h1 | ⟨ms, off, scls, r, st2, hr, hv, h1⟩⟩
      · rw [h] at h1; cases h1
      · rw [h] at h1; cases h1
      · rw [h] at h1; cases h1
      · rw [h] at h1; cases h1
      · rw [h] at h1
        injection h1 with h1
        subst h1
        obtain ⟨q1, -, q⟩ := saveAll_eqs ms 0 _ _ (here_of hin hr) hv
        refine ⟨q1, fun k => ?_⟩
        have hz : ((zeroed g st name e).eqs.find k).map texts = (st.eqs.find k).map texts := by
          rw [zeroed_find he]
          cases st.eqs.find k with
          | none => rfl
          | some x =>
            simp only [Option.map_some]
            split <;> rfl
        rw [← hz]
        rcases q k with ⟨i, w, l, e', a1, a2, a3, a4⟩ | ⟨a1, a2⟩
        · have a3' : (zeroed g st name e).eqs.find k = some e' := a3
          rw [a3', a4]
          rfl
        · rw [a2]
  · obtain ⟨-, q1, q2⟩ := C77_failed h
    refine ⟨q1, fun k => ?_⟩
    rcases q2 k with q | ⟨-, q⟩
    · rw [q]
    · rw [q]
      cases st.eqs.find k <;> rfl

theorem same_trans {a b c : St F K} (h1 : Same a b) (h2 : Same b c) : Same a c := ⟨h2.1.trans h1.1, fun k => (h2.2 k).trans (h1.2 k)⟩

theorem loop_same {g : Eng F K} {met : Int} {s : Sample} : ∀ (names : List Text) (st st' : St F K), (∀ n ∈ names, Inside st n) → Leaves (loop (estOne g met s) names st) st' → Same st st'
  | [], st, st', _, h => by
    rcases h with h | h | h
    · injection h with h; subst h; exact ⟨rfl, fun _ => rfl⟩
    · cases h
    · cases h
  | n :: names, st, st', hin, h => by
    unfold loop at h
    cases h1 : estOne g met s st n with
    | done st1 =>
      rw [h1] at h
      have hs := estOne_same (hin n (by simp)) (.inl h1)
      exact same_trans hs (loop_same names st1 st' (fun m hm => inside_same hs (hin m (by simp [hm]))) h)
    | failed st1 =>
      rw [h1] at h
      rcases h with h | h | h
      · cases h
      · injection h with h; subst h; exact estOne_same (hin n (by simp)) (.inr (.inl h1))
      · cases h
    | thrown st1 =>
      rw [h1] at h
      rcases h with h | h | h
      · cases h
      · cases h
      · injection h with h; subst h; exact estOne_same (hin n (by simp)) (.inr (.inr h1))
    | ub => rw [h1] at h; rcases h with h | h | h <;> cases h

/-- Whatever is estimated and however it ends: no equation loses or changes its name, its LEC, its comment, its instruments or its block, none is added and none is removed. -/
theorem C77_kept {g : Eng F K} {met : Int} {s : Sample} {names : List Text} {st st' : St F K} (hin : ∀ n ∈ names, Inside st n) (h : Leaves (estimate g met s names st) st') (k : Text) :
    (st'.eqs.find k).map (fun e => (e.endo, e.lec, e.comment, e.instruments, e.block)) = (st.eqs.find k).map fun e => (e.endo, e.lec, e.comment, e.instruments, e.block) :=
  (loop_same names { st with seen := [] } st' hin h).2 k

/-- The equation has the results of an estimation on this sample, asked for with the LEC of the equations. -/
def HasResults (g : Eng F K) (met : Int) (s : Sample) (st : St F K) (k : Text) (e : Eqn F) : Prop :=
  e.sample = some s ∧ e.date = g.today ∧ ∃ q scls vars scls' r i w, g.est q scls vars = (scls', some r) ∧ q.sample = s ∧ (0 ≤ met → q.method = met) ∧ q.endos[i]? = some w ∧ toKey .equations w = k ∧
    q.lecs.map some = q.endos.map (fun w => (st.eqs.find (toKey .equations w)).map Eqn.lec) ∧ e.method = (if 0 ≤ q.method ∧ q.method < 5 then q.method else 0) ∧
    e.tests = (List.range 11).map (r.test i) ++ g.rest

theorem lecs_of {g : Eng F K} {met : Int} {s : Sample} {st : St F K} {name : Text} {e : Eqn F} {ms : List (Text × Text)} {off : Int} {scls : SMap (Scl K)} {r : Found F K}
    (h : Ran g met s st name e ms off scls r) {st0 : St F K} (hs : Same st0 st) :
    (ms.map (·.2)).map some = (ms.map (·.1)).map fun w => (st0.eqs.find (toKey .equations w)).map Eqn.lec := by
  rw [List.map_map, List.map_map]
  refine List.map_congr_left fun p hp => ?_
  obtain ⟨e', h1, h2⟩ := h.lecs p hp
  obtain ⟨e0, h3, h4⟩ := same_find hs h1
  simp only [Function.comp]
  rw [h3, Option.map_some, ← h2]
  exact congrArg (fun t => some t.2.1) h4.symm

theorem results_step {g : Eng F K} {met : Int} {s : Sample} {st0 st st' : St F K} {name : Text} (h0 : Same st0 st) (hin : Inside st name) (hown : Own st name) (hs : name ∉ st.seen)
    (h : estOne g met s st name = .done st') : (∀ k e, st.eqs.find k = some e → HasResults g met s st0 k e → ∃ e', st'.eqs.find k = some e' ∧ HasResults g met s st0 k e') ∧
    (∃ e', st'.eqs.find (toKey .equations name) = some e' ∧ HasResults g met s st0 (toKey .equations name) e') ∧
    ∀ w, w ∈ st'.seen → w ∉ st.seen → ∃ e', st'.eqs.find (toKey .equations w) = some e' ∧ HasResults g met s st0 (toKey .equations w) e' := by
  obtain ⟨e, ms, off, scls, r, hr, q, -, -⟩ := C77_saved hin hs h
  have hseen : st'.seen = (together name e).reverse ++ st.seen := by
    rcases estOne_cases (g := g) (met := met) (s := s) hs with ⟨h1, -⟩ | ⟨e1, he, hd, ⟨scls, h1⟩ | h1 | h1 | ⟨ms, off, scls, r, st2, hr', hv, h1⟩⟩
    · rw [h] at h1; cases h1
    · rw [h] at h1; cases h1
    · rw [h] at h1; cases h1
    · rw [h] at h1; cases h1
    · rw [h] at h1
      injection h1 with h1
      subst h1
      obtain ⟨-, q1, -⟩ := saveAll_eqs ms 0 _ _ (here_of hin hr') hv
      have : e1 = e := by have := hr.known; rw [he] at this; injection this
      subst this
      rw [q1, hr'.names]
      rfl
  have hgot : ∀ k, (∃ w ∈ together name e, toKey .equations w = k) → ∃ e', st'.eqs.find k = some e' ∧ HasResults g met s st0 k e' := by
    rintro k ⟨w, hw, hk⟩
    rcases q k with ⟨i, w', e', a1, a2, a3, a4⟩ | ⟨a, -⟩ | ⟨a, -⟩
    · refine ⟨_, a4, rfl, rfl, _, _, _, _, r, i, w', hr.found, rfl, fun hm => ?_, ?_, a2, lecs_of hr h0, rfl, rfl⟩
      · exact if_neg (by omega)
      · show (ms.map (·.1))[i]? = some w'
        rw [hr.names]
        exact a1
    · exact absurd hk (a w hw)
    · exact absurd hk (a w hw)
  refine ⟨fun k e1 he1 hres => ?_, hgot _ (hown e hr.known), fun w hw hn => ?_⟩
  · by_cases hk : ∃ w ∈ together name e, toKey .equations w = k
    · exact hgot k hk
    · rcases q k with ⟨i, w', e', a1, a2, -⟩ | ⟨-, -, a⟩ | ⟨a, b, -⟩
      · exact absurd ⟨w', List.mem_of_getElem? a1, a2⟩ hk
      · exact ⟨e1, by rw [a]; exact he1, hres⟩
      · exact absurd (b ▸ hown e hr.known) hk
  · rw [hseen] at hw
    rcases List.mem_append.mp hw with hw | hw
    · exact hgot _ ⟨w, List.mem_reverse.mp hw, rfl⟩
    · exact absurd hw hn

theorem loop_results {g : Eng F K} {met : Int} {s : Sample} {st0 : St F K} : ∀ (names : List Text) (st st' : St F K), Same st0 st → (∀ n ∈ names, Inside st n ∧ Own st n) →
    (∀ w ∈ st.seen, ∃ e', st.eqs.find (toKey .equations w) = some e' ∧ HasResults g met s st0 (toKey .equations w) e') → loop (estOne g met s) names st = .done st' →
    (∀ k e, st.eqs.find k = some e → HasResults g met s st0 k e → ∃ e', st'.eqs.find k = some e' ∧ HasResults g met s st0 k e') ∧
    ∀ n ∈ names, ∃ e', st'.eqs.find (toKey .equations n) = some e' ∧ HasResults g met s st0 (toKey .equations n) e'
  | [], st, st', _, _, _, h => by
    injection h with h
    subst h
    exact ⟨fun k e he hr => ⟨e, he, hr⟩, by simp⟩
  | n :: names, st, st', h0, hn, hseen, h => by
    unfold loop at h
    cases h1 : estOne g met s st n with
    | done st1 =>
      rw [h1] at h
      obtain ⟨hin, hown⟩ := hn n (by simp)
      have hs := estOne_same hin (.inl h1)
      have hrest : ∀ m ∈ names, Inside st1 m ∧ Own st1 m := fun m hm => ⟨inside_same hs (hn m (by simp [hm])).1, own_same hs (hn m (by simp [hm])).2⟩
      by_cases hm : n ∈ st.seen
      · have e1 : st1 = st := by
          unfold estOne at h1
          simp only [] at h1
          rw [if_pos hm] at h1
          injection h1 with h1
          exact h1.symm
        subst e1
        obtain ⟨c1, c2⟩ := loop_results names st1 st' h0 hrest hseen h
        refine ⟨c1, fun m hm' => ?_⟩
        rcases List.mem_cons.mp hm' with rfl | hm'
        · obtain ⟨e', a, b⟩ := hseen m hm
          exact c1 _ e' a b
        · exact c2 m hm'
      · obtain ⟨d1, d2, d3⟩ := results_step h0 hin hown hm h1
        have hseen1 : ∀ w ∈ st1.seen, ∃ e', st1.eqs.find (toKey .equations w) = some e' ∧ HasResults g met s st0 (toKey .equations w) e' := by
          intro w hw
          by_cases hw' : w ∈ st.seen
          · obtain ⟨e', a, b⟩ := hseen w hw'
            exact d1 _ e' a b
          · exact d3 w hw hw'
        obtain ⟨c1, c2⟩ := loop_results names st1 st' (same_trans h0 hs) hrest hseen1 h
        refine ⟨fun k e he hr => ?_, fun m hm' => ?_⟩
        · obtain ⟨e', a, b⟩ := d1 k e he hr
          exact c1 k e' a b
        · rcases List.mem_cons.mp hm' with rfl | hm'
          · obtain ⟨e', a, b⟩ := d2
            exact c1 _ e' a b
          · exact c2 m hm'
    | failed st1 => rw [h1] at h; cases h
    | thrown st1 => rw [h1] at h; cases h
    | ub => rw [h1] at h; cases h

/-- If all of it succeeds, every equation that was asked for has the sample, the method, the date and the tests of an estimation on this sample, of equations with the LEC they have. -/
theorem C77_all {g : Eng F K} {met : Int} {s : Sample} {names : List Text} {st st' : St F K} (hn : ∀ n ∈ names, Inside st n ∧ Own st n) (h : estimate g met s names st = .done st') :
    ∀ n ∈ names, ∃ e', st'.eqs.find (toKey .equations n) = some e' ∧ HasResults g met s st (toKey .equations n) e' :=
  (loop_results (st0 := st) names { st with seen := [] } st' ⟨rfl, fun _ => rfl⟩ hn (by simp) h).2

theorem loop_append {σ : Type} {f : σ → Text → Out σ} : ∀ (a b : List Text) {s s' : σ}, loop f a s = .done s' → loop f (a ++ b) s = loop f b s'
  | [], b, s, s', h => by injection h with h; subst h; rfl
  | w :: a, b, s, s', h => by
    unfold loop at h
    rw [List.cons_append, loop]
    cases h1 : f s w with
    | done s1 => rw [h1] at h; simp only [] at h ⊢; exact loop_append a b h
    | failed s1 => rw [h1] at h; cases h
    | thrown s1 => rw [h1] at h; cases h
    | ub => rw [h1] at h; cases h

/-- A name without equation stops the command; the equations in front of it keep their results. -/
theorem C77_unknown {g : Eng F K} {met : Int} {s : Sample} {before behind : List Text} {w : Text} {st st' : St F K} (h : estimate g met s before st = .done st')
    (hs : w ∉ st'.seen) (hw : toKey .equations w ∉ st'.dbe) : estimate g met s (before ++ w :: behind) st = .failed st' := by
  unfold estimate at h ⊢
  rw [loop_append before _ h, loop]
  have : estOne g met s st' w = .failed st' := by
    unfold estOne
    simp only []
    rw [if_neg hs, if_pos hw]
  rw [this]

/-- A block with a name without equation is undefined: the list of its names is freed twice. -/
theorem C77_member_undefined {g : Eng F K} {met : Int} {s : Sample} {st : St F K} {name w : Text} {e : Eqn F} (hs : name ∉ st.seen) (hd : toKey .equations name ∈ st.dbe)
    (he : st.eqs.find (toKey .equations name) = some e) (hn : 1 ≤ s.nb) (hb : w ∈ pieces [' ', ',', ';'] e.block) (hw : st.eqs.find (toKey .equations w) = none) :
    estOne g met s st name = .ub := by
  unfold estOne
  simp only [he]
  rw [if_neg hs, if_neg (by simpa using hd), if_neg (by omega)]
  have : blockOf (st.eqs.insert (toKey .equations name) { e with tests := List.replicate 20 g.zero }) name e = none := by
    unfold blockOf
    rw [cut_pieces, if_neg (List.ne_nil_of_mem hb)]
    refine members_none no_blank ⟨w, hb, ?_⟩
    rw [SMap.find_insert, if_neg]
    · exact hw
    · intro e1
      rw [e1, he] at hw
      cases hw
  rw [this]

/-! ## Examples and counterexamples -/

/-- An estimation that finds the number of equations for everything. -/
abbrev eng : Eng Nat Nat where
  est q scls _ := if q.lecs.any (· = []) then (scls, none) else (scls.insert "c1".toList ⟨5, 1, some 1⟩, some ⟨fun j i => 100 * q.lecs.length + 10 * j + i, fun j t => 10 * j + t, fun j t => 20 * j + t, fun j t => 30 * j + t, 2⟩)
  rest := List.replicate 9 77
  zero := 0
  wide := id
  int := id
  one := 1
  today := 20260101
  first := ⟨2000, 1, 'Y'⟩
  nb := 4

abbrev eqn (n l b : Text) : Eqn Nat := ⟨n, l, 0, none, "about".toList, "I1".toList, b, 0, List.replicate 20 9⟩

abbrev mid : Sample := ⟨⟨2001, 1, 'Y'⟩, ⟨2002, 1, 'Y'⟩, 2⟩

abbrev ws : SMap (Eqn Nat) := [("A".toList, eqn "A".toList "A := c1 * B".toList "A;B".toList), ("B".toList, eqn "B".toList "B := c1 * A".toList "A;B".toList), ("C".toList, eqn "C".toList "C := c1".toList [])]

abbrev all : St Nat Nat := ⟨ws, ["A".toList, "B".toList, "C".toList], [], [], []⟩

abbrev got (e : Eqn Nat) (n j : Nat) : Eqn Nat := { e with sample := some mid, date := 20260101, tests := (List.range 11).map (fun i => 100 * n + 10 * j + i) ++ List.replicate 9 77 }

/-- The equations after an outcome. -/
def eqsOf : Out (St Nat Nat) → Option (SMap (Eqn Nat))
  | .done st => some st.eqs
  | .failed st => some st.eqs
  | .thrown st => some st.eqs
  | .ub => none

theorem inside_all (n : Text) : Inside all n := by
  rintro e - w - ⟨e', he⟩
  have := (SMap.mem_keys_iff (toKey .equations w) ws).mpr ⟨e', he⟩
  exact this

example : (∀ n ∈ ["A".toList, "b".toList, "C".toList], Inside all n) ∧ Own all "A".toList ∧ Own all "C".toList ∧
    eqsOf (estimate eng (-1) mid ["A".toList, "B".toList, "C".toList] all) =
      some [("A".toList, got (eqn "A".toList "A := c1 * B".toList "A;B".toList) 2 0), ("B".toList, got (eqn "B".toList "B := c1 * A".toList "A;B".toList) 2 1), ("C".toList, got (eqn "C".toList "C := c1".toList []) 1 0)] := by
  refine ⟨fun n _ => inside_all n, ?_, ?_, by decide +kernel⟩
  · intro e he
    have : e = eqn "A".toList "A := c1 * B".toList "A;B".toList := by
      have h2 : SMap.find (toKey .equations "A".toList) ws = some (eqn "A".toList "A := c1 * B".toList "A;B".toList) := by decide +kernel
      have h3 : some e = some _ := he.symm.trans h2
      injection h3
    subst this
    exact ⟨"A".toList, by decide +kernel, rfl⟩
  · intro e he
    have : e = eqn "C".toList "C := c1".toList [] := by
      have h2 : SMap.find (toKey .equations "C".toList) ws = some (eqn "C".toList "C := c1".toList []) := by decide +kernel
      have h3 : some e = some _ := he.symm.trans h2
      injection h3
    subst this
    exact ⟨"C".toList, by decide +kernel, rfl⟩

/-- The scalars and the variables after an outcome. -/
def sclOf (k : String) : Out (St Nat Nat) → Option (Scl Nat)
  | .done st => st.scls.find k.toList
  | _ => none

def varOf (k : String) : Out (St Nat Nat) → Option (List (Option Nat))
  | .done st => st.vars.find k.toList
  | _ => none

example : sclOf "e1_r2" (estimate eng (-1) mid ["A".toList] all) = some ⟨217, 1, none⟩ ∧ sclOf "c1" (estimate eng (-1) mid ["A".toList] all) = some ⟨5, 1, some 1⟩ ∧
    varOf "_YRES1" (estimate eng (-1) mid ["A".toList] all) = some [none, some 30, some 31, none] := by decide +kernel

example : eqsOf (estimate eng (-1) mid ["C".toList, "D".toList, "A".toList] all) =
    some [("A".toList, eqn "A".toList "A := c1 * B".toList "A;B".toList), ("B".toList, eqn "B".toList "B := c1 * A".toList "A;B".toList), ("C".toList, got (eqn "C".toList "C := c1".toList []) 1 0)] := by
  decide +kernel

/-- An equation of the block that is not in the database that is estimated, as with `$EqsEstimate` and the name of only one of them, loses its comment, its instruments and its block. -/
theorem C77_member_counterexample : eqsOf (estimate eng (-1) mid ["A".toList] { all with dbe := ["A".toList] }) =
    some [("A".toList, got (eqn "A".toList "A := c1 * B".toList "A;B".toList) 2 0),
      ("B".toList, { got (eqn "B".toList "B := c1 * A".toList "A;B".toList) 2 1 with comment := [], instruments := [], block := "B".toList }), ("C".toList, eqn "C".toList "C := c1".toList [])] := by
  decide +kernel

/-- The scalars and variables of results are numbered in each block: two equations estimated by themselves leave only those of the second. -/
theorem C77_number_counterexample :
    sclOf "e0_r2" (estimate eng (-1) mid ["C".toList, "A".toList] all) = some ⟨207, 1, none⟩ ∧ sclOf "e0_r2" (estimate eng (-1) mid ["C".toList] all) = some ⟨107, 1, none⟩ ∧
    sclOf "e2_r2" (estimate eng (-1) mid ["C".toList, "A".toList] all) = none := by decide +kernel

/-- Values that no estimation has set are saved behind the eleven tests: an equation that is estimated twice may differ from itself. -/
theorem C77_rest_counterexample :
    eqsOf (estimate eng (-1) mid ["C".toList] all) ≠ eqsOf (estimate { eng with rest := List.replicate 9 78 } (-1) mid ["C".toList] all) := by decide +kernel

/-- An equation that is not in its own block has no results. -/
theorem C77_own_counterexample :
    eqsOf (estimate eng (-1) mid ["A".toList] { all with eqs := [("A".toList, eqn "A".toList "A := c1".toList "B".toList), ("B".toList, eqn "B".toList "B := c1".toList [])] }) =
    some [("A".toList, { eqn "A".toList "A := c1".toList "B".toList with tests := List.replicate 20 0 }), ("B".toList, got (eqn "B".toList "B := c1".toList []) 1 0)] := by
  decide +kernel

example : estOne eng (-1) mid { all with eqs := [("A".toList, eqn "A".toList "A := c1".toList "A,D".toList)] } "A".toList = .ub :=
  C77_member_undefined (w := "D".toList) (e := eqn "A".toList "A := c1".toList "A,D".toList) (by decide +kernel) (by decide +kernel) (by decide +kernel) (by decide) (by decide +kernel) (by decide +kernel)

end Iode.EstSave
