import Verif.Model.DfTest
import Verif.Props.C76
import Verif.Props.C77
import Verif.Props.C01
import Verif.Lemmas.DfTest
import Mathlib.Algebra.Order.Field.Basic

/-!
# C78: the Dickey-Fuller test estimates its equation on the periods where all of it is known, gives the coefficients in order and leaves the workspaces as they were
-/
namespace Iode.DfTest

open Iode.Args (Text)
open DataCmd (Out left bseps)
open EstSave (Eqn Scl Eng St Found SclsSaved VarsSaved Inside shownNames)

variable {F K : Type}

/-- The first numbers in a row are those from position `b` to position `d`, without `d`. -/
structure Run (v : List (Option K)) (b d : Nat) : Prop where
  le : b ≤ d
  len : d ≤ v.length
  before : ∀ i, i < b → v[i]? = some none
  numbers : ∀ i, b ≤ i → i < d → ∃ x, v[i]? = some (some x)
  some' : b < v.length → b < d
  behind : d < v.length → v[d]? = some none

theorem firstNum_spec : ∀ (v : List (Option K)) (t : Nat), ∃ n, firstNum t v = t + n ∧ n ≤ v.length ∧ (∀ i, i < n → v[i]? = some none) ∧ (n < v.length → ∃ x, v[n]? = some (some x))
  | [], t => ⟨0, rfl, by simp, by simp, by simp⟩
  | some x :: l, t => ⟨0, rfl, by simp, by simp, fun _ => ⟨x, rfl⟩⟩
  | none :: l, t => by
    obtain ⟨n, h1, h2, h3, h4⟩ := firstNum_spec l (t + 1)
    refine ⟨n + 1, by rw [firstNum, h1]; omega, by simp; omega, fun i hi => ?_, fun hn => ?_⟩
    · cases i with
      | zero => rfl
      | succ i => rw [List.getElem?_cons_succ]; exact h3 i (by omega)
    · rw [List.getElem?_cons_succ]; exact h4 (by simpa using hn)

theorem firstNa_spec : ∀ (v : List (Option K)) (t : Nat), ∃ n, firstNa t v = t + n ∧ n ≤ v.length ∧ (∀ i, i < n → ∃ x, v[i]? = some (some x)) ∧ (n < v.length → v[n]? = some none)
  | [], t => ⟨0, rfl, by simp, by simp, by simp⟩
  | none :: l, t => ⟨0, rfl, by simp, by simp, fun _ => rfl⟩
  | some x :: l, t => by
    obtain ⟨n, h1, h2, h3, h4⟩ := firstNa_spec l (t + 1)
    refine ⟨n + 1, by rw [firstNa, h1]; omega, by simp; omega, fun i hi => ?_, fun hn => ?_⟩
    · cases i with
      | zero => exact ⟨x, rfl⟩
      | succ i => rw [List.getElem?_cons_succ]; exact h3 i (by omega)
    · rw [List.getElem?_cons_succ]; exact h4 (by simpa using hn)

/-- There is one such stretch only. -/
theorem run_unique {v : List (Option K)} {b d b' d' : Nat} (h : Run v b d) (h' : Run v b' d') : b = b' ∧ d = d' := by
  have hb : b = b' := by
    rcases Nat.lt_trichotomy b b' with hl | hl | hl
    · have := h.some' (by have := h'.le; have := h'.len; omega)
      obtain ⟨x, hx⟩ := h.numbers b (by omega) this
      rw [h'.before b hl] at hx; cases hx
    · exact hl
    · have := h'.some' (by have := h.le; have := h.len; omega)
      obtain ⟨x, hx⟩ := h'.numbers b' (by omega) this
      rw [h.before b' hl] at hx; cases hx
  subst hb
  refine ⟨rfl, ?_⟩
  rcases Nat.lt_trichotomy d d' with hl | hl | hl
  · have hn := h.behind (by have := h'.len; omega)
    obtain ⟨x, hx⟩ := h'.numbers d h.le hl
    rw [hn] at hx; cases hx
  · exact hl
  · have hn := h'.behind (by have := h.len; omega)
    obtain ⟨x, hx⟩ := h.numbers d' h'.le hl
    rw [hn] at hx; cases hx

theorem run_exists (v : List (Option K)) : Run v (firstNum 0 v) (firstNa (firstNum 0 v) (v.drop (firstNum 0 v))) := by
  obtain ⟨n, h1, h2, h3, h4⟩ := firstNum_spec v 0
  rw [Nat.zero_add] at h1
  rw [h1]
  obtain ⟨m, k1, k2, k3, k4⟩ := firstNa_spec (v.drop n) n
  rw [k1]
  rw [List.length_drop] at k2 k4
  refine ⟨by omega, by omega, h3, fun i h5 h6 => ?_, fun h5 => ?_, fun h5 => ?_⟩
  · obtain ⟨x, hx⟩ := k3 (i - n) (by omega)
    rw [List.getElem?_drop] at hx
    exact ⟨x, by rw [← hx]; congr 1; omega⟩
  · rcases Nat.eq_zero_or_pos m with hm | hm
    · exfalso
      obtain ⟨x, hx⟩ := h4 h5
      have := k4 (by omega)
      rw [List.getElem?_drop, hm, Nat.add_zero, hx] at this
      cases this
    · omega
  · have := k4 (by omega)
    rwa [List.getElem?_drop] at this

theorem getSmpl_eq {g : Eng F K} {v : List (Option K)} {b d : Nat} (hf : g.first.WF) (h : Run v b d) :
    ∃ p q, getSmpl g v = .ok ⟨p, q, (d : Int) - b⟩ ∧ p.WF ∧ p.difference g.first = .ok b ∧ p.periodicity = g.first.periodicity ∧ g.first.shift b = .ok p := by
  obtain ⟨e1, e2⟩ := run_unique (run_exists v) h
  obtain ⟨p, hp, hw, hper, hd, -⟩ := C01_shift_distance g.first hf b
  obtain ⟨q, hq, hqw, hqper, hqd, -⟩ := C01_shift_distance g.first hf d
  obtain ⟨x, y, h1, h2, h3⟩ := C01_difference_chain q p g.first hqw (hqper.trans hper.symm) hper
  rw [hd] at h2
  rw [hqd] at h3
  injection h2 with h2
  injection h3 with h3
  refine ⟨p, q, ?_, hw, hd, hper, hp⟩
  unfold getSmpl
  simp only []
  rw [e1] at *
  rw [e2, hp]
  show (g.first.shift d).bind _ = _
  rw [hq]
  show (q.difference p).bind _ = _
  rw [h1]
  show Res.ok _ = _
  congr 2
  omega

theorem key_eq : toKey .equations dfName = dfName := by decide +kernel
theorem key_var : toKey .variables dfName = dfName := by decide +kernel

/-- The equation before it is estimated. -/
abbrev fresh (g : Eng F K) (lec : Text) : Eqn F := ⟨dfName, lec, 0, none, [], [], [], 0, List.replicate 20 g.zero⟩

abbrev start (g : Eng F K) (lec : Text) (w : Ws F K) : St F K :=
  ⟨w.eqs.insert dfName (fresh g lec), (w.eqs.insert dfName (fresh g lec)).keys, w.scls, w.vars, []⟩

theorem unitRoot1_eq (g : Eng F K) (s : Sample) (lec : Text) (w : Ws F K) : unitRoot1 g s lec w =
    match EstSave.estOne g (-1) s (start g lec w) dfName with
    | .done st => .done ⟨st.eqs.erase dfName, st.scls, st.vars⟩
    | .failed st => .failed ⟨st.eqs.erase dfName, st.scls, st.vars⟩
    | .thrown st => .thrown ⟨st.eqs, st.scls, st.vars⟩
    | .ub => .ub := by
  unfold unitRoot1 EstSave.estimate
  simp only [key_eq]
  unfold DataCmd.loop
  cases EstSave.estOne g (-1) s (start g lec w) dfName <;> rfl

theorem start_find (g : Eng F K) (lec : Text) (w : Ws F K) : (start g lec w).eqs.find (toKey .equations dfName) = some (fresh g lec) := by
  rw [key_eq]
  exact SMap.find_insert_self ..

theorem start_inside (g : Eng F K) (lec : Text) (w : Ws F K) : Inside (start g lec w) dfName := by
  rintro e - x - ⟨e', he⟩
  exact (SMap.mem_keys_iff (toKey .equations x) (start g lec w).eqs).mpr ⟨e', he⟩

theorem fresh_together (g : Eng F K) (lec : Text) : EstSave.together dfName (fresh g lec) = [dfName] := by
  unfold EstSave.together
  rw [if_pos (by show Args.pieces _ [] = []; decide +kernel)]

/-- The estimation of the equation succeeds. -/
theorem unitRoot1_done {g : Eng F K} {s : Sample} {lec : Text} {w w' : Ws F K} (h : unitRoot1 g s lec w = .done w') :
    ∃ scls r off, s.start.difference g.first = .ok off ∧ g.est ⟨[dfName], [lec], [], 0, s⟩ w.scls w.vars = (scls, some r) ∧
      (∀ k, w'.eqs.find k = if k = dfName then none else w.eqs.find k) ∧ SclsSaved g s.nb.toNat r 1 scls w'.scls ∧ VarsSaved g off s.nb.toNat r 1 w.vars w'.vars := by
  rw [unitRoot1_eq] at h
  cases he : EstSave.estOne g (-1) s (start g lec w) dfName with
  | failed st => rw [he] at h; cases h
  | thrown st => rw [he] at h; cases h
  | ub => rw [he] at h; cases h
  | done st =>
    rw [he] at h
    injection h with h
    subst h
    obtain ⟨e, ms, off, scls, r, hr, q1, q2, q3⟩ := EstSave.C77_saved (start_inside g lec w) (by simp) he
    have hk := hr.known
    rw [start_find] at hk
    injection hk with hk
    subst hk
    rw [fresh_together] at q1 q2 q3
    have hn := hr.names
    rw [fresh_together] at hn
    obtain ⟨p, rfl, hp⟩ := List.map_eq_singleton_iff.mp hn
    have hms : p = (dfName, lec) := by
      obtain ⟨e', h1, h2⟩ := hr.lecs p (by simp)
      rw [hp, start_find] at h1
      injection h1 with h1
      subst h1
      rw [show p = (p.1, p.2) from rfl, hp, ← h2]
    subst hms
    refine ⟨scls, r, off, hr.start, hr.found, fun k => ?_, q2, q3⟩
    show (st.eqs.erase dfName).find k = _
    rw [SMap.find_erase]
    by_cases hk : k = dfName
    · rw [if_pos hk, if_pos hk]
    · rw [if_neg hk, if_neg hk]
      rcases q1 k with ⟨i, x, e, h1, h2, -⟩ | ⟨-, -, h3⟩ | ⟨-, h2, -⟩
      · have : x = dfName := by
          have := List.mem_of_getElem? h1
          simpa using this
        rw [this, key_eq] at h2
        exact absurd h2.symm hk
      · rw [h3]
        show (w.eqs.insert dfName _).find k = _
        rw [SMap.find_insert, if_neg hk]
      · rw [key_eq] at h2
        exact absurd h2 hk

theorem estOne_scls {g : Eng F K} {met : Int} {s : Sample} {st st' : St F K} {name : Text} (h : EstSave.estOne g met s st name = .failed st') :
    st'.scls = st.scls ∨ ∃ q, g.est q st.scls st.vars = (st'.scls, none) := by
  unfold EstSave.estOne at h
  simp only [] at h
  split at h
  · cases h
  · split at h
    · injection h with h; subst h; exact .inl rfl
    · split at h
      · injection h with h; subst h; exact .inl rfl
      · split at h
        · injection h with h; subst h; exact .inl rfl
        · split at h
          · cases h
          · split at h
            · rename_i hq
              injection h with h
              subst h
              exact .inr ⟨_, hq⟩
            · split at h <;> cases h
          · cases h
          · cases h

/-- The estimation of the equation fails. -/
theorem unitRoot1_failed {g : Eng F K} {s : Sample} {lec : Text} {w w' : Ws F K} (h : unitRoot1 g s lec w = .failed w') :
    w'.vars = w.vars ∧ (∀ k, w'.eqs.find k = if k = dfName then none else w.eqs.find k) ∧ (w'.scls = w.scls ∨ ∃ q, g.est q w.scls w.vars = (w'.scls, none)) := by
  rw [unitRoot1_eq] at h
  cases he : EstSave.estOne g (-1) s (start g lec w) dfName with
  | done st => rw [he] at h; cases h
  | thrown st => rw [he] at h; cases h
  | ub => rw [he] at h; cases h
  | failed st =>
    rw [he] at h
    injection h with h
    subst h
    obtain ⟨q1, -, q3⟩ := EstSave.C77_failed (.inl he)
    refine ⟨q1, fun k => ?_, estOne_scls he⟩
    show (st.eqs.erase dfName).find k = _
    rw [SMap.find_erase]
    by_cases hk : k = dfName
    · rw [if_pos hk, if_pos hk]
    · rw [if_neg hk, if_neg hk]
      rcases q3 k with h3 | ⟨h2, -⟩
      · rw [h3]
        show (w.eqs.insert dfName _).find k = _
        rw [SMap.find_insert, if_neg hk]
      · rw [key_eq] at h2
        exact absurd h2 hk

/-- The estimation does not throw when its sample has the periodicity of the variables. -/
theorem unitRoot1_thrown {g : Eng F K} {s : Sample} {lec : Text} {w w' : Ws F K} {off : Int} (hs : s.start.difference g.first = .ok off) : unitRoot1 g s lec w ≠ .thrown w' := by
  intro h
  rw [unitRoot1_eq] at h
  cases he : EstSave.estOne g (-1) s (start g lec w) dfName with
  | done st => rw [he] at h; cases h
  | failed st => rw [he] at h; cases h
  | ub => rw [he] at h; cases h
  | thrown st =>
    unfold EstSave.estOne at he
    simp only [] at he
    rw [hs] at he
    split at he
    · cases he
    · split at he
      · cases he
      · split at he
        · cases he
        · split at he
          · cases he
          · split at he
            · cases he
            · split at he
              · cases he
              · split at he <;> cases he
            · rename_i hq; cases hq
            · rename_i hq; cases hq

/-! ## The scalars -/

theorem coefs_key {drift trend : Bool} {order : Nat} {n : Text} (h : n ∈ coefs drift trend order) : toKey .scalars n = n := by
  unfold coefs at h
  have h1 : toKey .scalars "df_".toList = "df_".toList := by decide +kernel
  have h2 : toKey .scalars "df_d".toList = "df_d".toList := by decide +kernel
  have h3 : toKey .scalars "df_t".toList = "df_t".toList := by decide +kernel
  rcases List.mem_cons.mp h with rfl | h
  · exact h1
  · rcases List.mem_append.mp h with h | h
    · rcases List.mem_append.mp h with h | h
      · cases drift
        · cases h
        · rcases List.mem_cons.mp h with rfl | h
          · exact h2
          · cases h
      · cases trend
        · cases h
        · rcases List.mem_cons.mp h with rfl | h
          · exact h3
          · cases h
    · obtain ⟨i, -, rfl⟩ := List.mem_map.mp h
      have hs : ∀ c ∈ 'd' :: 'f' :: natToChars (i + 1), toLowerC c = c ∧ isTrimC c = false := by
        intro c hc
        rcases List.mem_cons.mp hc with rfl | hc
        · decide
        · rcases List.mem_cons.mp hc with rfl | hc
          · decide
          · exact ⟨(EstSave.digit_plain (natToChars_isDigit _ c hc)).1, (EstSave.digit_plain (natToChars_isDigit _ c hc)).2.2⟩
      show toLower (trim _) = _
      rw [trim_eq_self fun c hc => (hs c hc).2]
      exact EstSave.map_self fun c hc => (hs c hc).1

/-- The names of the scalars begin with a `d`. -/
theorem coefs_head {drift trend : Bool} {order : Nat} {n : Text} (h : n ∈ coefs drift trend order) : n.head? = some 'd' := by
  unfold coefs at h
  have h1 : "df_".toList.head? = some 'd' := by decide +kernel
  have h2 : "df_d".toList.head? = some 'd' := by decide +kernel
  have h3 : "df_t".toList.head? = some 'd' := by decide +kernel
  rcases List.mem_cons.mp h with rfl | h
  · exact h1
  · rcases List.mem_append.mp h with h | h
    · rcases List.mem_append.mp h with h | h
      · cases drift
        · cases h
        · rcases List.mem_cons.mp h with rfl | h
          · exact h2
          · cases h
      · cases trend
        · cases h
        · rcases List.mem_cons.mp h with rfl | h
          · exact h3
          · cases h
    · obtain ⟨i, -, rfl⟩ := List.mem_map.mp h
      rfl

theorem coefs_nodup (drift trend : Bool) (order : Nat) : (coefs drift trend order).Nodup := by
  have h0 : ∀ b1 b2 : Bool, ("df_".toList :: ((if b1 then ["df_d".toList] else []) ++ (if b2 then ["df_t".toList] else []))).Nodup := by decide +kernel
  have h1 : ∀ b1 b2 : Bool, ∀ n ∈ ("df_".toList :: ((if b1 then ["df_d".toList] else []) ++ (if b2 then ["df_t".toList] else []))), n[2]? = some '_' := by decide +kernel
  have hm : ((List.range order).map fun i : Nat => 'd' :: 'f' :: natToChars (i + 1)).Nodup := by
    refine List.Nodup.map ?_ List.nodup_range
    intro i j hij
    simp only [List.cons.injEq, true_and] at hij
    have := Macros.natToChars_inj hij
    omega
  have hc : coefs drift trend order = ("df_".toList :: ((if drift then ["df_d".toList] else []) ++ (if trend then ["df_t".toList] else []))) ++
      (List.range order).map fun i : Nat => 'd' :: 'f' :: natToChars (i + 1) := by
    unfold coefs
    rw [List.cons_append]
  rw [hc]
  refine List.Nodup.append (h0 drift trend) hm ?_
  intro n hn hn'
  have h2 := h1 drift trend n hn
  obtain ⟨i, -, rfl⟩ := List.mem_map.mp hn'
  have h3 : (natToChars (i + 1))[0]? = some '_' := h2
  have := natToChars_isDigit (i + 1) '_' (List.mem_of_getElem? h3)
  exact absurd this (by decide)

theorem coefs_length (drift trend : Bool) (order : Nat) : (coefs drift trend order).length = drift.toNat + trend.toNat + order + 1 := by
  unfold coefs
  cases drift <;> cases trend <;> simp <;> omega

theorem defaults_find (g : Eng F K) (a : Num K) : ∀ (ns : List Text) (m : SMap (Scl K)) (k : Text), (∀ n ∈ ns, toKey .scalars n = n) →
    (defaults g a m ns).find k = if k ∈ ns then some ⟨a.init, g.one, none⟩ else m.find k
  | [], m, k, _ => by simp [defaults]
  | n :: ns, m, k, h => by
    have ih := defaults_find g a ns (m.insert (toKey .scalars n) ⟨a.init, g.one, none⟩) k fun x hx => h x (by simp [hx])
    show (defaults g a (m.insert (toKey .scalars n) ⟨a.init, g.one, none⟩) ns).find k = _
    rw [ih, h n (by simp), SMap.find_insert]
    by_cases h1 : k ∈ ns
    · rw [if_pos h1, if_pos (by simp [h1])]
    · rw [if_neg h1]
      by_cases h2 : k = n
      · rw [if_pos h2, if_pos (by simp [h2])]
      · rw [if_neg h2, if_neg (by simp [h1, h2])]

theorem removed_find : ∀ (ns : List Text) (m : SMap (Scl K)) (k : Text), (∀ n ∈ ns, toKey .scalars n = n) →
    (removed m ns).find k = if k ∈ ns then none else m.find k
  | [], m, k, _ => by simp [removed]
  | n :: ns, m, k, h => by
    have ih := removed_find ns (m.erase (toKey .scalars n)) k fun x hx => h x (by simp [hx])
    show (removed (m.erase (toKey .scalars n)) ns).find k = _
    rw [ih, h n (by simp), SMap.find_erase]
    by_cases h1 : k ∈ ns
    · rw [if_pos h1, if_pos (by simp [h1])]
    · rw [if_neg h1]
      by_cases h2 : k = n
      · rw [if_pos h2, if_pos (by simp [h2])]
      · rw [if_neg h2, if_neg (by simp [h1, h2])]

/-- The three values are those of the scalar: its value, its standard error and their quotient. -/
structure Of (a : Num K) (m : SMap (Scl K)) (n : Text) (x : Trip K) : Prop where
  known : ∃ s, m.find n = some s ∧ x.value = s.value ∧ x.std = s.std.getD a.na
  quotient : a.isZero x.std = false → x.t = some (a.div x.value x.std)
  unset : a.isZero x.std = true → x.t = none

theorem toReals_of {a : Num K} {m : SMap (Scl K)} : ∀ {ns : List Text} {r : List (Trip K)}, (∀ n ∈ ns, toKey .scalars n = n) → toReals a m ns = .ok r → List.Forall₂ (Of a m) ns r
  | [], r, _, h => by
    injection h with h
    subst h
    exact .nil
  | n :: ns, r, hk, h => by
    unfold toReals at h
    obtain ⟨x, h1, h⟩ := EstSave.bind_eq h
    obtain ⟨xs, h2, h⟩ := EstSave.bind_eq h
    injection h with h
    subst h
    refine .cons ?_ (toReals_of (fun y hy => hk y (by simp [hy])) h2)
    unfold toReal at h1
    rw [hk n (by simp)] at h1
    cases hf : m.find n with
    | none => rw [hf] at h1; cases h1
    | some s =>
      rw [hf] at h1
      injection h1 with h1
      subst h1
      exact ⟨⟨s, hf, rfl, rfl⟩, fun hz => by simp only [] at hz; simp [hz], fun hz => by simp only [] at hz; simp [hz]⟩

theorem toReals_some {a : Num K} {m : SMap (Scl K)} : ∀ {ns : List Text}, (∀ n ∈ ns, toKey .scalars n = n) → (∀ n ∈ ns, ∃ s, m.find n = some s) → ∃ r, toReals a m ns = .ok r
  | [], _, _ => ⟨[], rfl⟩
  | n :: ns, hk, h => by
    obtain ⟨r, hr⟩ := toReals_some (a := a) (m := m) (ns := ns) (fun y hy => hk y (by simp [hy])) fun y hy => h y (by simp [hy])
    obtain ⟨s, hs⟩ := h n (by simp)
    unfold toReals toReal
    rw [hk n (by simp), hs]
    simp only [Res.bind, hr]
    exact ⟨_, rfl⟩

/-! ## The test -/

/-- What a test leaves: `v` are the values of the expression, `scls` the scalars as the estimation left them. -/
structure Left (names : List Text) (v : List (Option K)) (w w' : Ws F K) : Prop where
  eqs : ∀ k, w'.eqs.find k = if k = "_DF".toList then none else w.eqs.find k
  var : w'.vars.find "_DF".toList = some v
  vars : ∀ k, k ≠ "_DF".toList → (∀ b ∈ ["_YCALC0".toList, "_YOBS0".toList, "_YRES0".toList], k ≠ b) → w'.vars.find k = w.vars.find k
  scls : ∀ k ∈ names, w'.scls.find k = none

/-- The scalars the estimation starts with. -/
def Begins (g : Eng F K) (a : Num K) (names : List Text) (w : Ws F K) (m : SMap (Scl K)) : Prop :=
  ∀ k, m.find k = if k ∈ names then some ⟨a.init, g.one, none⟩ else w.scls.find k

/-- The workspaces when the estimation begins. -/
abbrev begun (g : Eng F K) (a : Num K) (v : List (Option K)) (names : List Text) (w : Ws F K) : Ws F K := ⟨w.eqs, defaults g a w.scls names, w.vars.insert dfName v⟩

theorem unitRoot_cases (g : Eng F K) (a : Num K) {v : List (Option K)} (drift trend : Bool) (order : Nat) {b d : Nat} (w : Ws F K) (hf : g.first.WF) (hv : Run v b d) :
    ((d : Int) - b - 1 < (drift.toNat + trend.toNat + order + 1) * 2 ∧ unitRoot g a (some v) drift trend order w = .done (⟨w.eqs, w.scls, (w.vars.insert dfName v).erase dfName⟩, none)) ∨
    (¬ (d : Int) - b - 1 < (drift.toNat + trend.toNat + order + 1) * 2 ∧ 1024 ≤ (lecText drift trend order).length ∧ unitRoot g a (some v) drift trend order w = .ub) ∨
    (¬ (d : Int) - b - 1 < (drift.toNat + trend.toNat + order + 1) * 2 ∧ (lecText drift trend order).length < 1024 ∧
      ∃ p q, p.difference g.first = .ok ((b : Int) + 1 + order) ∧ unitRoot g a (some v) drift trend order w =
        match unitRoot1 g ⟨p, q, (d : Int) - b - 1 - order⟩ (lecText drift trend order) (begun g a v (coefs drift trend order) w) with
          | .ub => .ub
          | .thrown w3 => .thrown (w3, none)
          | .failed w3 => .done ({ w3 with scls := removed w3.scls (coefs drift trend order) }, none)
          | .done w3 =>
            match toReals a w3.scls (coefs drift trend order) with
            | .ok r => .done ({ w3 with scls := removed w3.scls (coefs drift trend order) }, some r)
            | _ => .ub) := by
  obtain ⟨p, q, h1, h2, h3, h4, h5⟩ := getSmpl_eq hf hv
  obtain ⟨p1, k1, k2, k3, k4, -⟩ := C01_shift_distance p h2 1
  obtain ⟨p2, l1, l2, l3, l4, -⟩ := C01_shift_distance p1 k2 order
  have hd : p2.difference g.first = .ok ((b : Int) + 1 + order) := by
    obtain ⟨x, y, m1, m2, m3⟩ := C01_difference_chain p2 p1 p l2 l3 k3
    rw [l4] at m1
    rw [k4] at m2
    injection m1 with m1
    injection m2 with m2
    obtain ⟨x', y', n1, n2, n3⟩ := C01_difference_chain p2 p g.first l2 (l3.trans k3) h4
    rw [m3] at n1
    rw [h3] at n2
    injection n1 with n1
    injection n2 with n2
    rw [n3]
    congr 1
    omega
  have hg : (getSmpl g v).bind (fun s => (s.start.shift 1).bind fun p => .ok (⟨p, s.stop, s.nb - 1⟩ : Sample)) = .ok ⟨p1, q, (d : Int) - b - 1⟩ := by
    rw [h1]
    show (p.shift 1).bind _ = _
    rw [k1]
    rfl
  unfold unitRoot
  simp only []
  rw [hg, key_var]
  simp only []
  by_cases c1 : (d : Int) - b - 1 < (drift.toNat + trend.toNat + order + 1) * 2
  · left
    rw [if_pos c1]
    exact ⟨c1, rfl⟩
  · right
    rw [if_neg c1]
    by_cases c2 : 1024 ≤ (lecText drift trend order).length
    · left
      rw [if_pos c2]
      exact ⟨c1, c2, rfl⟩
    · right
      rw [if_neg c2]
      refine ⟨c1, by omega, p2, q, hd, ?_⟩
      rw [l1]
      simp only []
      generalize unitRoot1 g ⟨p2, q, (d : Int) - b - 1 - order⟩ (lecText drift trend order) (begun g a v (coefs drift trend order) w) = u
      cases u with
      | done w3 =>
        simp only []
        generalize toReals a w3.scls (coefs drift trend order) = u
        cases u <;> rfl
      | failed w3 => rfl
      | thrown w3 => rfl
      | ub => rfl

theorem toReals_congr {a : Num K} {m m' : SMap (Scl K)} : ∀ {ns : List Text}, (∀ n ∈ ns, toKey .scalars n = n) → (∀ n ∈ ns, m.find n = m'.find n) → toReals a m ns = toReals a m' ns
  | [], _, _ => rfl
  | n :: ns, hk, h => by
    unfold toReals toReal
    rw [hk n (by simp), h n (by simp), toReals_congr (fun y hy => hk y (by simp [hy])) fun y hy => h y (by simp [hy])]

theorem zero_chars : natToChars 0 = ['0'] := by decide +kernel

/-- A test that succeeds: what is estimated, on which periods, what the result is and what the workspaces are. -/
theorem C78_result {g : Eng F K} {a : Num K} {v : List (Option K)} {drift trend : Bool} {order b d : Nat} {w w' : Ws F K} {res : List (Trip K)} (hf : g.first.WF)
    (hv : Run v b d) (h : unitRoot g a (some v) drift trend order w = .done (w', some res)) :
    ∃ s m vars scls r, Begins g a (coefs drift trend order) w m ∧ (∀ k, vars.find k = if k = "_DF".toList then some v else w.vars.find k) ∧
      g.est ⟨["_DF".toList], [lecText drift trend order], [], 0, s⟩ m vars = (scls, some r) ∧
      s.start.difference g.first = .ok ((b : Int) + 1 + order) ∧ s.nb = (d : Int) - b - 1 - order ∧ ((coefs drift trend order).length : Int) < s.nb ∧
      (∀ t : Nat, ((b : Int) + 1 + order ≤ t ∧ (t : Int) < (b : Int) + 1 + order + s.nb) ↔ ∀ j, j ≤ order + 1 → ∃ i x, i + j = t ∧ b ≤ i ∧ i < d ∧ v[i]? = some (some x)) ∧
      List.Forall₂ (Of a scls) (coefs drift trend order) res ∧ Left (coefs drift trend order) v w w' ∧
      (∀ k, k ∉ coefs drift trend order → (∀ t ∈ shownNames, k ≠ "e0_".toList ++ t) → w'.scls.find k = scls.find k) ∧
      VarsSaved g ((b : Int) + 1 + order) s.nb.toNat r 1 vars w'.vars := by
  rcases unitRoot_cases g a drift trend order w hf hv with ⟨-, h1⟩ | ⟨-, -, h1⟩ | ⟨c1, -, p, q, hp, h1⟩
  · rw [h] at h1; cases h1
  · rw [h] at h1; cases h1
  · rw [h] at h1
    cases hu : unitRoot1 g ⟨p, q, (d : Int) - b - 1 - order⟩ (lecText drift trend order) (begun g a v (coefs drift trend order) w) with
    | ub => rw [hu] at h1; cases h1
    | thrown w3 => rw [hu] at h1; cases h1
    | failed w3 => rw [hu] at h1; cases h1
    | done w3 =>
      rw [hu] at h1
      simp only [] at h1
      cases hr : toReals a w3.scls (coefs drift trend order) with
      | err => rw [hr] at h1; cases h1
      | ub => rw [hr] at h1; cases h1
      | ok r' =>
        rw [hr] at h1
        injection h1 with h1
        injection h1 with h1 h2
        injection h2 with h2
        subst h1 h2
        obtain ⟨scls, r, off, u1, u2, u3, u4, u5⟩ := unitRoot1_done hu
        have ho : off = (b : Int) + 1 + order := by
          have := u1.symm.trans hp
          injection this
        subst ho
        have hcs : ∀ k, (∀ t ∈ shownNames, k ≠ "e0_".toList ++ t) → w3.scls.find k = scls.find k := by
          intro k hk
          refine u4.2 k fun i hi t ht => ?_
          have : i = 0 := by omega
          subst this
          rw [zero_chars]
          exact hk t ht
        have hde : ∀ k ∈ coefs drift trend order, ∀ t ∈ shownNames, k ≠ "e0_".toList ++ t := by
          rintro k hk t - rfl
          have := coefs_head hk
          have h2 : ("e0_".toList ++ t).head? = some 'e' := rfl
          rw [this] at h2
          exact absurd h2 (by decide)
        have hxv : ∀ k, (w.vars.insert dfName v).find k = if k = dfName then some v else w.vars.find k := fun k => SMap.find_insert ..
        have hvs : ∀ k, (∀ b ∈ ["_YCALC0".toList, "_YOBS0".toList, "_YRES0".toList], k ≠ b) → w3.vars.find k = (w.vars.insert dfName v).find k := by
          intro k hk
          refine u5.2 k fun i hi b hb => ?_
          have : i = 0 := by omega
          subst this
          rw [zero_chars]
          refine hk _ ?_
          have : ∀ b ∈ ["_YCALC".toList, "_YOBS".toList, "_YRES".toList], b ++ ['0'] ∈ ["_YCALC0".toList, "_YOBS0".toList, "_YRES0".toList] := by decide +kernel
          exact this b hb
        refine ⟨⟨p, q, (d : Int) - b - 1 - order⟩, defaults g a w.scls (coefs drift trend order), w.vars.insert dfName v, scls, r,
          fun k => defaults_find g a _ _ k fun n hn => coefs_key hn, hxv, u2, hp, rfl, ?_, fun t => ⟨fun ht j hj => ?_, fun ht => ?_⟩, ?_, ⟨u3, ?_, fun k hk hk2 => ?_, fun k hk => ?_⟩, fun k hk hk2 => ?_, u5⟩
        · rw [coefs_length]
          push_cast
          omega
        · simp only [] at ht
          obtain ⟨x, hx⟩ := hv.numbers (t - j) (by omega) (by omega)
          exact ⟨t - j, x, by omega, by omega, by omega, hx⟩
        · obtain ⟨i, -, h1, h2, h3, -⟩ := ht 0 (by omega)
          obtain ⟨i', -, h1', h2', h3', -⟩ := ht (order + 1) (by omega)
          simp only []
          omega
        · rw [toReals_congr (fun n hn => coefs_key hn) fun n hn => hcs n (hde n hn)] at hr
          exact toReals_of (fun n hn => coefs_key hn) hr
        · show w3.vars.find dfName = _
          rw [hvs dfName (by decide +kernel), hxv, if_pos rfl]
        · show w3.vars.find k = _
          rw [hvs k hk2, hxv]
          exact if_neg hk
        · show (removed w3.scls (coefs drift trend order)).find k = _
          rw [removed_find _ _ _ fun n hn => coefs_key hn, if_pos hk]
        · show (removed w3.scls (coefs drift trend order)).find k = _
          rw [removed_find _ _ _ fun n hn => coefs_key hn, if_neg hk]
          exact hcs k hk2

/-- A test that is refused, because the expression has no values or the numbers in a row are too few, changes nothing but the variable `_DF`, which it removes. -/
theorem C78_refused {g : Eng F K} {a : Num K} {v : List (Option K)} {drift trend : Bool} {order b d : Nat} {w : Ws F K} (hf : g.first.WF) (hv : Run v b d)
    (hs : (d : Int) - b - 1 < (drift.toNat + trend.toNat + order + 1) * 2) :
    ∃ w', unitRoot g a (some v) drift trend order w = .done (w', none) ∧ unitRoot g a none drift trend order w = .done (w, none) ∧ w'.eqs = w.eqs ∧ w'.scls = w.scls ∧
      ∀ k, w'.vars.find k = if k = "_DF".toList then none else w.vars.find k := by
  rcases unitRoot_cases g a drift trend order w hf hv with ⟨-, h1⟩ | ⟨c1, -⟩ | ⟨c1, -⟩
  · refine ⟨_, h1, rfl, rfl, rfl, fun k => ?_⟩
    show ((w.vars.insert dfName v).erase dfName).find k = _
    rw [SMap.find_erase, SMap.find_insert]
    show (if k = dfName then _ else _) = if k = dfName then _ else _
    by_cases hk : k = dfName
    · rw [if_pos hk, if_pos hk]
    · rw [if_neg hk, if_neg hk, if_neg hk]
  · exact absurd hs c1
  · exact absurd hs c1

/-- A test with an estimation that fails leaves the variable `_DF`, and no scalars of the equation. -/
theorem C78_failed {g : Eng F K} {a : Num K} {v : List (Option K)} {drift trend : Bool} {order b d : Nat} {w w' : Ws F K} (hf : g.first.WF) (hv : Run v b d)
    (hs : (drift.toNat + trend.toNat + order + 1) * 2 ≤ (d : Int) - b - 1) (h : unitRoot g a (some v) drift trend order w = .done (w', none)) :
    Left (coefs drift trend order) v w w' ∧ (∀ k, k ≠ "_DF".toList → w'.vars.find k = w.vars.find k) ∧
      ∃ m scls, Begins g a (coefs drift trend order) w m ∧ (scls = m ∨ ∃ q vars, g.est q m vars = (scls, none)) ∧ ∀ k, k ∉ coefs drift trend order → w'.scls.find k = scls.find k := by
  rcases unitRoot_cases g a drift trend order w hf hv with ⟨c1, -⟩ | ⟨-, -, h1⟩ | ⟨c1, -, p, q, hp, h1⟩
  · omega
  · rw [h] at h1; cases h1
  · rw [h] at h1
    cases hu : unitRoot1 g ⟨p, q, (d : Int) - b - 1 - order⟩ (lecText drift trend order) (begun g a v (coefs drift trend order) w) with
    | ub => rw [hu] at h1; cases h1
    | thrown w3 => rw [hu] at h1; cases h1
    | done w3 =>
      rw [hu] at h1
      simp only [] at h1
      cases hr : toReals a w3.scls (coefs drift trend order) with
      | err => rw [hr] at h1; cases h1
      | ub => rw [hr] at h1; cases h1
      | ok r' => rw [hr] at h1; injection h1 with h1; injection h1 with h1 h2; cases h2
    | failed w3 =>
      rw [hu] at h1
      injection h1 with h1
      injection h1 with h1 h2
      subst h1
      obtain ⟨u1, u2, u3⟩ := unitRoot1_failed hu
      have hvk : ∀ k, k ≠ dfName → w3.vars.find k = w.vars.find k := by
        intro k hk
        rw [u1]
        show (w.vars.insert dfName v).find k = _
        rw [SMap.find_insert, if_neg hk]
      refine ⟨⟨u2, ?_, fun k hk _ => hvk k hk, fun k hk => ?_⟩, hvk, _, w3.scls, fun k => defaults_find g a _ _ k fun n hn => coefs_key hn, ?_, fun k hk => ?_⟩
      · show w3.vars.find dfName = _
        rw [u1]
        exact SMap.find_insert_self ..
      · show (removed w3.scls (coefs drift trend order)).find k = _
        rw [removed_find _ _ _ fun n hn => coefs_key hn, if_pos hk]
      · rcases u3 with u3 | ⟨q, u3⟩
        · exact .inl u3
        · exact .inr ⟨q, _, u3⟩
      · show (removed w3.scls (coefs drift trend order)).find k = _
        rw [removed_find _ _ _ fun n hn => coefs_key hn, if_neg hk]

/-- The test does not throw. -/
theorem C78_no_exception (g : Eng F K) (a : Num K) (vec : Option (List (Option K))) (drift trend : Bool) (order : Nat) (w : Ws F K) (hf : g.first.WF) (x : Ws F K × Option (List (Trip K))) :
    unitRoot g a vec drift trend order w ≠ .thrown x ∧ unitRoot g a vec drift trend order w ≠ .failed x := by
  cases vec with
  | none => exact ⟨(by intro h; cases h), (by intro h; cases h)⟩
  | some v =>
    rcases unitRoot_cases g a drift trend order w hf (run_exists v) with ⟨-, h1⟩ | ⟨-, -, h1⟩ | ⟨-, -, p, q, hp, h1⟩
    · rw [h1]; exact ⟨(by intro h; cases h), (by intro h; cases h)⟩
    · rw [h1]; exact ⟨(by intro h; cases h), (by intro h; cases h)⟩
    · rw [h1]
      generalize hu : unitRoot1 g ⟨p, q, _⟩ (lecText drift trend order) (begun g a v (coefs drift trend order) w) = u
      cases u with
      | ub => exact ⟨(by intro h; cases h), (by intro h; cases h)⟩
      | thrown w3 => exact absurd hu (unitRoot1_thrown hp)
      | failed w3 => exact ⟨(by intro h; cases h), (by intro h; cases h)⟩
      | done w3 =>
        simp only []
        generalize toReals a w3.scls (coefs drift trend order) = u
        cases u <;> exact ⟨(by intro h; cases h), (by intro h; cases h)⟩

theorem flat_length (f : Nat → Text) (c : Nat) (hc : ∀ i, c ≤ (f i).length) : ∀ n, c * n ≤ ((List.range n).flatMap f).length
  | 0 => by simp
  | n + 1 => by
    have := flat_length f c hc n
    have := hc n
    rw [List.range_succ, List.flatMap_append, List.length_append]
    simp only [List.flatMap_cons, List.flatMap_nil, List.append_nil]
    rw [Nat.mul_succ]
    omega

/-- The equation is written to an array of 1024 characters: a test of order 59 or more writes behind it. -/
theorem C78_order_undefined {g : Eng F K} {a : Num K} {v : List (Option K)} {drift trend : Bool} {order b d : Nat} {w : Ws F K} (hf : g.first.WF) (hv : Run v b d)
    (hs : (drift.toNat + trend.toNat + order + 1) * 2 ≤ (d : Int) - b - 1) (ho : 59 ≤ order) : unitRoot g a (some v) drift trend order w = .ub := by
  have hl : 1024 ≤ (lecText drift trend order).length := by
    unfold lecText
    rw [List.length_append, List.length_append, List.length_append]
    have h0 : "d(_DF) := df_ * _DF[-1]".toList.length = 23 := by decide +kernel
    have h1 : " + df".toList.length = 5 := by decide +kernel
    have h2 : "*d(_DF[-".toList.length = 8 := by decide +kernel
    have h3 : "])".toList.length = 2 := by decide +kernel
    have := flat_length (fun i : Nat => " + df".toList ++ natToChars (i + 1) ++ "*d(_DF[-".toList ++ natToChars (i + 1) ++ "])".toList) 17 (by
      intro i
      simp only [List.length_append, h1, h2, h3]
      have := List.length_pos_iff.mpr (natToChars_ne_nil (i + 1))
      omega) order
    omega
  rcases unitRoot_cases g a drift trend order w hf hv with ⟨c1, -⟩ | ⟨-, -, h1⟩ | ⟨-, c2, -⟩
  · omega
  · exact h1
  · omega

/-! ## The scalars of the result -/

theorem coeffs_find {a : Num K} {one : K} : ∀ {ns : List Text} {xs : List (Trip K)} {m m' : SMap (Scl K)}, ns.length = xs.length → ns.Nodup → (∀ n ∈ ns, toKey .scalars n = n) → coeffs a one ns xs m = .ok m' →
    (∀ k, k ∉ ns → m'.find k = m.find k) ∧ ∀ (i : Nat) (n : Text) (x : Trip K), ns[i]? = some n → xs[i]? = some x → ∃ s, coeff a one x = .ok s ∧ m'.find n = some s
  | [], [], m, m', _, _, _, h => by
    injection h with h
    subst h
    exact ⟨fun _ _ => rfl, fun i n x h => by simp at h⟩
  | n :: ns, x :: xs, m, m', hl, hn, hk, h => by
    unfold coeffs at h
    obtain ⟨s, h1, h⟩ := EstSave.bind_eq h
    rw [hk n (by simp)] at h
    obtain ⟨q1, q2⟩ := coeffs_find (by simpa using hl) (List.nodup_cons.mp hn).2 (fun y hy => hk y (by simp [hy])) h
    refine ⟨fun k hk' => ?_, fun i y z hy hz => ?_⟩
    · rw [q1 k (by simp at hk'; exact hk'.2), SMap.find_insert, if_neg (by simp at hk'; exact hk'.1)]
    · cases i with
      | zero =>
        simp only [List.getElem?_cons_zero, Option.some.injEq] at hy hz
        subst hy hz
        refine ⟨s, h1, ?_⟩
        rw [q1 n (List.nodup_cons.mp hn).1]
        exact SMap.find_insert_self ..
      | succ i => exact q2 i y z (by simpa using hy) (by simpa using hz)

/-- Exact arithmetic. -/
abbrev exact' (K : Type) [Field K] [LinearOrder K] (init na : K) : Num K := ⟨init, na, fun x => decide (x = 0), fun x y => x / y, fun x y => decide (x < y)⟩

/-- The scalars of a test that succeeds: their names, and for each the value, the standard error, unless the value is zero, and the smaller of it and one as relaxation. -/
theorem C78_scalars {K : Type} [Field K] [LinearOrder K] {g : Eng F K} {init na : K} {v : List (Option K)} {drift trend : Bool} {order : Nat} {w w' : Ws F K} {res : List (Trip K)} {m : SMap (Scl K)}
    (hf : g.first.WF) (hr : unitRoot g (exact' K init na) (some v) drift trend order w = .done (w', some res)) (h : dickeyFuller g (exact' K init na) (some v) drift trend order w = .done (w', m)) :
    (∀ k, k ∉ coefs drift trend order → m.find k = none) ∧
    ∀ (i : Nat) (n : Text) (x : Trip K), (coefs drift trend order)[i]? = some n → res[i]? = some x → m.find n = some ⟨x.value, min x.std g.one, if x.value = 0 then none else some x.std⟩ := by
  obtain ⟨-, -, -, scls, -, -, -, -, -, -, -, -, hof, -⟩ := C78_result hf (run_exists v) hr
  unfold dickeyFuller at h
  rw [hr] at h
  simp only [] at h
  cases hc : coeffs (exact' K init na) g.one (coefs drift trend order) res [] with
  | err => rw [hc] at h; cases h
  | ub => rw [hc] at h; cases h
  | ok m' =>
    rw [hc] at h
    injection h with h
    injection h with _ h
    subst h
    obtain ⟨q1, q2⟩ := coeffs_find hof.length_eq (coefs_nodup _ _ _) (fun n hn => coefs_key hn) hc
    refine ⟨fun k hk => by rw [q1 k hk]; rfl, fun i n x hn hx => ?_⟩
    obtain ⟨s, h1, h2⟩ := q2 i n x hn hx
    have hox : Of (exact' K init na) scls n x := by
      obtain ⟨h3, h4⟩ := List.getElem?_eq_some_iff.mp hn
      obtain ⟨h5, h6⟩ := List.getElem?_eq_some_iff.mp hx
      rw [← h4, ← h6]
      exact (List.forall₂_iff_get.mp hof).2 i h3 h5
    rw [h2]
    unfold coeff at h1
    by_cases hz : x.std = 0
    · have := hox.unset (by simp [hz])
      rw [this] at h1
      cases h1
    · have := hox.quotient (by simp [hz])
      rw [this] at h1
      injection h1 with h1
      rw [← h1]
      congr 2
      · by_cases hlt : x.std < g.one
        · simp [hlt, min_eq_left hlt.le]
        · simp [hlt, min_eq_right (not_lt.mp hlt)]
      · by_cases h0 : x.value = 0
        · simp [h0]
        · have : x.value / x.std ≠ 0 := div_ne_zero h0 hz
          simp [h0, hz, this]

/-! ## The equation -/

/-- What the two sides of the equation are worth at a period, when all values they need are numbers: the change of the variable, and
    `df_ x[t-1] + df_d + df_t t + df1 (x[t-1] - x[t-2]) + df2 (x[t-2] - x[t-3]) + …`, added up from the left. -/
theorem C78_equation {A : Lec.Arith F} {V : Lec.Env F} (hna : A.isNum A.na = false) (hA : Numbers A) (L : Lec.LexEnv) (ls : List (Name × Text)) {drift trend : Bool} {order : Nat} (ho : order < 10 ^ 9) {t : Int}
    (hc : ∀ n ∈ coefs drift trend order, A.isNum (V.coef n) = true) (ht : trend = true → A.isNum (A.ofInt t) = true) (hx : ∀ j : Nat, j ≤ order + 1 → A.isNum (V.at A "_DF".toList (t - j)) = true) :
    ∃ left right n ts ts', DynAdj.splitEq (lecText drift trend order) = some (left, right) ∧ Lec.lexText L ls n left = .done ts ls ∧ Lec.lexText L ls n right = .done ts' ls ∧
      Lec.evalText A V [] ts t = .ok (A.sub (V.at A "_DF".toList t) (V.at A "_DF".toList (t - 1))) ∧
      Lec.evalText A V [] ts' t = .ok (((List.range order).foldl (fun (s : F) (i : Nat) => A.add s (A.mul (V.coef ('d' :: 'f' :: natToChars (i + 1)))
        (A.sub (V.at A "_DF".toList (t - (i + 1 : Nat))) (V.at A "_DF".toList (t - (i + 1 : Nat) - 1)))))
        (let v0 := A.mul (V.coef "df_".toList) (V.at A "_DF".toList (t - 1))
         let v1 := if drift then A.add v0 (V.coef "df_d".toList) else v0
         if trend then A.add v1 (A.mul (V.coef "df_t".toList) (A.ofInt t)) else v1))) := by
  have hx0 : A.isNum (V.at A dfName t) = true := by have := hx 0 (by omega); rw [show t - ((0 : Nat) : Int) = t by omega] at this; exact this
  have hx1 : A.isNum (V.at A dfName (t - 1)) = true := hx 1 (by omega)
  have hd : Lec.eval A V (.app (.tfn .diff) [.par (.var dfName 0 none)]) t = some (A.sub (V.at A dfName t) (V.at A dfName (t - 1))) := by
    have := eval_diff (A := A) (E := V) (l := 0) (t := t) (by rw [Int.add_zero]; exact hx0) (by rw [Int.add_zero]; exact hx1)
    rw [Int.add_zero, Int.add_zero] at this
    exact this
  have hb := eval_base hA (E := V) (drift := drift) (trend := trend) (t := t) (hc _ (by unfold coefs; exact .head _))
    (by rintro rfl; exact hc _ (by unfold coefs; exact .tail _ (.head _)))
    (by rintro rfl; exact ⟨hc _ (by unfold coefs; cases drift; exact .tail _ (.head _); exact .tail _ (.tail _ (.head _))), ht rfl⟩) hx1
  have hs := eval_sum hA (E := V) (t := t) order 0 hb.1 hb.2 (fun i h1 h2 => hc _ (by
      unfold coefs
      refine List.mem_cons_of_mem _ (List.mem_append_right _ (List.mem_map.mpr ⟨i - 1, List.mem_range.mpr (by omega), ?_⟩))
      rw [show i - 1 + 1 = i by omega])) fun i h1 h2 => hx i (by omega)
  rw [← lagSum_range, ← List.range_eq_range'] at hs
  have k1 : ∀ {ts : List Lec.RTok} {s : Text}, Lec.Written.Laid L.rnd ts s → (∀ c ∈ s, c.toNat ≠ 13 ∧ c.toNat ≠ 26) → Lec.Written.Laid L.rnd ts (s.filter Lec.kept) := by
    intro ts s h h2
    rw [List.filter_eq_self.mpr fun c hc => by simp only [Lec.kept, decide_eq_true_eq]; exact h2 c hc]
    exact h
  have hplain : ∀ c ∈ rhs drift trend order, c.toNat ≠ 0 ∧ c.toNat ≠ 13 ∧ c.toNat ≠ 26 := by
    intro c hc
    unfold rhs at hc
    have p1 : ∀ c ∈ " df_ * _DF[-1]".toList, c.toNat ≠ 0 ∧ c.toNat ≠ 13 ∧ c.toNat ≠ 26 := by decide +kernel
    have p2 : ∀ b : Bool, ∀ c ∈ (if b then "+ df_d".toList else []), c.toNat ≠ 0 ∧ c.toNat ≠ 13 ∧ c.toNat ≠ 26 := by decide +kernel
    have p3 : ∀ b : Bool, ∀ c ∈ (if b then "+ df_t*t".toList else []), c.toNat ≠ 0 ∧ c.toNat ≠ 13 ∧ c.toNat ≠ 26 := by decide +kernel
    have p4 : ∀ c ∈ " + df".toList, c.toNat ≠ 0 ∧ c.toNat ≠ 13 ∧ c.toNat ≠ 26 := by decide +kernel
    have p5 : ∀ c ∈ "*d(_DF[-".toList, c.toNat ≠ 0 ∧ c.toNat ≠ 13 ∧ c.toNat ≠ 26 := by decide +kernel
    have p6 : ∀ c ∈ "])".toList, c.toNat ≠ 0 ∧ c.toNat ≠ 13 ∧ c.toNat ≠ 26 := by decide +kernel
    have p7 : ∀ n, ∀ c ∈ natToChars n, c.toNat ≠ 0 ∧ c.toNat ≠ 13 ∧ c.toNat ≠ 26 := by
      intro n c hc
      have := chars_digit hc
      unfold Lec.Written.Digit at this
      omega
    rcases List.mem_append.mp hc with hc | hc
    · exact p1 c hc
    rcases List.mem_append.mp hc with hc | hc
    · exact p2 _ c hc
    rcases List.mem_append.mp hc with hc | hc
    · exact p3 _ c hc
    obtain ⟨i, -, hc⟩ := List.mem_flatMap.mp hc
    simp only [List.mem_append] at hc
    rcases hc with (((hc | hc) | hc) | hc) | hc
    · exact p4 c hc
    · exact p7 _ c hc
    · exact p5 c hc
    · exact p7 _ c hc
    · exact p6 c hc
  refine ⟨_, _, lhsToks.length + (rhsToks drift trend order).length + 1, lhsToks, rhsToks drift trend order, lecText_split drift trend order,
    Lec.C47_tokens L ls (k1 laid_lhs (by decide +kernel)) (by decide +kernel) (by omega),
    Lec.C47_tokens L ls (k1 (laid_rhs drift trend ho) fun c hc => (hplain c hc).2) (fun c hc => (hplain c hc).1) (by omega), ?_, ?_⟩
  · exact Lec.C24_simple_value A V hna reads_lhs (simple_diff A V 0) hd
  · exact Lec.C24_simple_value A V hna (reads_rhs drift trend order) (simple_sum A V order 0 (simple_base A V drift trend)) hs

/-! ## The arguments of the command -/

theorem tabs_self {r : Text} (h : '\t' ∉ r) : r.map (fun c => if c = '\t' then ' ' else c) = r :=
  EstSave.map_self fun c hc => if_neg (by rintro rfl; exact h hc)

theorem word_num {n : Nat} (hn : n < 10 ^ 20) {r : Text} (hr : '\t' ∉ r) : word (natToChars n ++ ' ' :: r) = (natToChars n, ' ' :: r) := by
  have hdig := natToChars_isDigit n
  have hl := EqsCmd.left_word hdig (natToChars_ne_nil n) (' ' :: r)
  rw [show DataCmd.tabs (' ' :: r) = ' ' :: r from tabs_self (by simp; exact hr)] at hl
  have hlen := chars_length 19 n hn
  have hnb : ∀ x ∈ natToChars n, x ∉ bseps := by
    intro x hx hb
    have := chars_digit hx
    unfold Lec.Written.Digit at this
    have h2 : ∀ y ∈ bseps, ¬ (48 ≤ y.toNat) := by decide
    exact h2 x hb this.1
  have ht : ((natToChars n ++ ' ' :: r).take 20).takeWhile (· ∉ bseps) = natToChars n := by
    rw [List.take_append, List.take_of_length_le (by omega : (natToChars n).length ≤ 20), List.takeWhile_append_of_pos (by simpa using hnb)]
    cases hm : 20 - (natToChars n).length with
    | zero => simp
    | succ m => rw [List.take_succ_cons, List.takeWhile_cons_of_neg (by decide), List.append_nil]
  unfold word
  rw [hl, ht, List.drop_left]

theorem word_blank {n : Nat} (hn : n < 10 ^ 20) {r : Text} (hr : '\t' ∉ r) : word (' ' :: (natToChars n ++ ' ' :: r)) = (natToChars n, ' ' :: r) := by
  rw [← word_num hn hr]
  have hdig := natToChars_isDigit n
  have hne := natToChars_ne_nil n
  have hl : left (' ' :: (natToChars n ++ ' ' :: r)) = left (natToChars n ++ ' ' :: r) := by
    have hm : (natToChars n ++ ' ' :: r).map (fun c => if c = '\t' then ' ' else c) = natToChars n ++ ' ' :: r := by
      refine tabs_self ?_
      simp only [List.mem_append, List.mem_cons, not_or]
      refine ⟨fun h => ?_, by decide, hr⟩
      exact absurd (hdig _ h) (by decide)
    unfold left
    rw [List.map_cons, hm]
    have hsp : ∀ l : Text, ((if ' ' = '\t' then ' ' else ' ') :: l).dropWhile isSpaceC = l.dropWhile isSpaceC := fun l => rfl
    show (if ((if ' ' = '\t' then ' ' else ' ') :: (natToChars n ++ ' ' :: r)).dropWhile isSpaceC = [] then _ else ((if ' ' = '\t' then ' ' else ' ') :: (natToChars n ++ ' ' :: r)).dropWhile isSpaceC) =
      if (natToChars n ++ ' ' :: r).dropWhile isSpaceC = [] then _ else (natToChars n ++ ' ' :: r).dropWhile isSpaceC
    rw [hsp]
    have hd : (natToChars n ++ ' ' :: r).dropWhile isSpaceC ≠ [] := by
      cases hx : natToChars n with
      | nil => exact absurd hx hne
      | cons c l =>
        have hc := hdig c (by rw [hx]; simp)
        rw [List.cons_append, List.dropWhile_cons_of_neg]
        · simp
        · simp only [isDigitC, Bool.and_eq_true, decide_eq_true_eq] at hc
          simp only [isSpaceC, Bool.or_eq_true, decide_eq_true_eq, Bool.and_eq_true, not_or]
          omega
    rw [if_neg hd, if_neg hd]
  unfold word
  rw [hl]

/-- `$StatUnitRoot drift trend order expression` reads the three numbers and the expression, when they are separated by one blank. -/
theorem C78_arguments {d t o : Nat} (hd : d < 10 ^ 20) (ht : t < 10 ^ 20) (ho : o < 10 ^ 20) {lec : Text} (hl : '\t' ∉ lec) :
    statArgs (natToChars d ++ ' ' :: (natToChars t ++ ' ' :: (natToChars o ++ ' ' :: lec))) = .ok (natToChars d, natToChars t, natToChars o, ' ' :: lec) := by
  have tab : ∀ n, '\t' ∉ natToChars n := fun n h => absurd (natToChars_isDigit n _ h) (by decide)
  have h1 : '\t' ∉ natToChars o ++ ' ' :: lec := by
    simp only [List.mem_append, List.mem_cons, not_or]
    exact ⟨tab o, by decide, hl⟩
  have h2 : '\t' ∉ natToChars t ++ ' ' :: (natToChars o ++ ' ' :: lec) := by
    rw [List.mem_append, List.mem_cons, not_or, not_or]
    exact ⟨tab t, by decide, h1⟩
  unfold statArgs
  rw [word_num hd h2]
  simp only []
  rw [word_num ht h1]
  simp only []
  rw [word_blank ho hl]


set_option synthInstance.maxSize 4000 in
/-- With commas, which separate words elsewhere, the order is not read and the expression begins with a comma. -/
theorem C78_comma_counterexample : statArgs "0,1,2,A".toList = .ok ("0".toList, "1".toList, [], ",2,A".toList) ∧
    statArgs "0 1 2 A".toList = .ok ("0".toList, "1".toList, "2".toList, " A".toList) ∧ statArgs "0".toList = .ub := by decide +kernel

/-! ## Examples and counterexamples -/

/-- An estimation that finds -1/2 with the standard error 1/4 for the coefficients of the test, on at least five periods. -/
abbrev eng : Eng Nat Rat where
  est q scls _ := if q.sample.nb < 5 then (scls, none) else
    (scls.map fun p => if p.1.take 2 = "df".toList then (p.1, { p.2 with value := -1/2, std := some (1/4) }) else p, some ⟨fun _ i => i, fun _ t => t, fun _ t => t, fun _ _ => 0, 2⟩)
  rest := List.replicate 9 0
  zero := 0
  wide n := n
  int n := n
  one := 1
  today := 20260101
  first := ⟨2000, 1, 'Y'⟩
  nb := 12

abbrev ten : List (Option Rat) := [none, some 1, some 2, some 4, some 8, some 9, some 11, some 12, some 13, some 15, none, some 7]

abbrev ws : Ws Nat Rat := ⟨[], [("a1".toList, ⟨3, 1, none⟩)], [("A".toList, ten)]⟩

/-- The result of a test and the names in the workspaces. -/
def seen : Out (Ws Nat Rat × Option (List (Trip Rat))) → Option (Option (List (Trip Rat)) × List Text × List Text × List Text)
  | .done (w, r) => some (r, w.eqs.keys, w.scls.keys, w.vars.keys)
  | _ => none

def scalars : Out (Ws Nat Rat × SMap (Scl Rat)) → Option (SMap (Scl Rat))
  | .done (_, m) => some m
  | _ => none

theorem eng_first : eng.first.WF := ⟨1, rfl, by decide, by decide⟩

theorem run_ten : Run ten 1 10 := run_exists ten

set_option synthInstance.maxSize 4000 in
example : seen (unitRoot eng (exact' Rat (9/10) (-2)) (some ten) true false 1 ws) =
    some (some [⟨-1/2, 1/4, some (-2)⟩, ⟨-1/2, 1/4, some (-2)⟩, ⟨-1/2, 1/4, some (-2)⟩], [],
      ["a1".toList, "e0_dw".toList, "e0_fstat".toList, "e0_k".toList, "e0_loglik".toList, "e0_meany".toList, "e0_n".toList, "e0_r2".toList, "e0_r2adj".toList, "e0_ssres".toList,
        "e0_stderr".toList, "e0_stderrp".toList, "e0_stdev".toList],
      ["A".toList, "_DF".toList, "_YCALC0".toList, "_YOBS0".toList, "_YRES0".toList]) ∧
    scalars (dickeyFuller eng (exact' Rat (9/10) (-2)) (some ten) true false 1 ws) =
      some [("df1".toList, ⟨-1/2, 1/4, some (1/4)⟩), ("df_".toList, ⟨-1/2, 1/4, some (1/4)⟩), ("df_d".toList, ⟨-1/2, 1/4, some (1/4)⟩)] := by decide +kernel

/-- Too few numbers. -/
example : seen (unitRoot eng (exact' Rat (9/10) (-2)) (some ten) true true 2 ws) = some (none, [], ["a1".toList], ["A".toList]) := by decide +kernel

set_option synthInstance.maxSize 4000 in
/-- A variable, an equation and scalars of the user with the names of the test are lost, the variable even if the test is refused. -/
theorem C78_names_counterexample :
    let w : Ws Nat Rat := ⟨[("_DF".toList, ⟨"_DF".toList, "_DF := df1".toList, 0, none, [], [], [], 0, []⟩)], [("df1".toList, ⟨7, 1, none⟩)], [("_DF".toList, ten)]⟩
    seen (unitRoot eng (exact' Rat (9/10) (-2)) (some ten) true true 2 w) = some (none, ["_DF".toList], ["df1".toList], []) ∧
    (seen (unitRoot eng (exact' Rat (9/10) (-2)) (some (ten.map (·.map (· + 1)))) true false 1 w)).map (fun p => (p.2.1, p.2.2.1.filter (·.take 2 = "df".toList))) = some ([], []) := by decide +kernel

/-- An estimation that finds 0 with the standard error 1/4: the scalar of the result has no standard error. -/
theorem C78_zero_counterexample : coeff (exact' Rat (9/10) (-2)) 1 ⟨0, 1/4, some 0⟩ = .ok ⟨0, 1/4, none⟩ := by decide +kernel

/-- When the standard error is zero, the third value is not set and the result reads it. -/
theorem C78_no_error_undefined {K : Type} (a : Num K) (one : K) (m : SMap (Scl K)) {n : Text} {v : K} {s : Scl K} (hk : toKey .scalars n = n) (h : m.find n = some s) (hs : s.std = some v) (hz : a.isZero v = true) :
    ∃ x, toReal a m n = .ok x ∧ x.t = none ∧ coeff a one x = .ub := by
  refine ⟨⟨s.value, v, none⟩, ?_, rfl, rfl⟩
  unfold toReal
  rw [hk, h]
  simp only [hs, Option.getD_some, hz, if_true]

/-- Sums, differences and products of numbers, missing values stay missing. -/
def arith : Lec.Arith (Option Int) := { Lec.exArith with
  isNum := fun x => x.isSome
  na := none
  add := fun x y => x.bind fun a => y.map fun b => a + b
  sub := fun x y => x.bind fun a => y.map fun b => a - b
  mul := fun x y => x.bind fun a => y.map fun b => a * b
  ofInt := some }

def env : Lec.Env (Option Int) := ⟨10, fun _ => 0, fun _ i => some (i * i), fun _ => some 3, 0⟩

/-- The conditions on the equation are met. -/
example : arith.isNum arith.na = false ∧ Numbers arith ∧ (∀ n ∈ coefs true true 2, arith.isNum (env.coef n) = true) ∧ arith.isNum (arith.ofInt 5) = true ∧
    (∀ j : Nat, j ≤ 2 + 1 → arith.isNum (env.at arith "_DF".toList (5 - j)) = true) := by
  refine ⟨rfl, ⟨?_, ?_, ?_⟩, fun n _ => rfl, rfl, ?_⟩
  all_goals first
    | (intro a b ha hb; cases a <;> cases b <;> first | exact ha | exact hb | rfl)
    | skip
  intro j hj
  unfold Lec.Env.at
  rw [if_pos (show 0 ≤ 5 - (j : Int) ∧ 5 - (j : Int) < env.nb from ⟨by omega, by show _ < (10 : Int); omega⟩)]
  rfl

end Iode.DfTest
