import Verif.Lemmas.SimFrame
import Verif.Props.C32

/-!
# C36: simulating never touches exogenous variables or other periods
-/
namespace Iode.Sim

variable {F : Type}

theorem carryOn_nil (nb : Nat) (t : Int) (s : Store F) : carryOn nb t [] s = s := by
  funext w u; simp [carryOn]

theorem planOf_unks {eqs : List (Eqn F)} {e : Endo} {b : Blocks} {v : Nat} (h : v ∈ unks (planOf eqs e b).all) :
    v ∈ e.posxk := by
  unfold unks at h
  obtain ⟨q, hq, rfl⟩ := List.mem_map.1 h
  have : ∃ i, unkAt eqs e i = some q := by
    simp only [Plan.all, planOf, List.mem_append, List.mem_filterMap] at hq
    rcases hq with (⟨i, _, h⟩ | ⟨i, _, h⟩) | ⟨i, _, h⟩ <;> exact ⟨i, h⟩
  obtain ⟨i, hi⟩ := this
  unfold unkAt at hi
  split at hi
  · next q' v h1 h2 =>
    simp only [Option.some.injEq] at hi
    subst hi
    exact List.mem_of_getElem? h2
  · cases hi

/-- Successful periods: at the variables that are not exchanged only unknowns of simulated periods change. -/
theorem simPeriods_only (A : Flo F) (o : SimOpts F) (nb : Nat) (pl : Plan F) (exos : List Nat) :
    ∀ n t xk s r, simPeriods A o nb pl exos n t xk s = .ok r →
      ∀ w u, w ∉ exos → ¬(w ∈ unks pl.all ∧ t ≤ u ∧ u < t + n) → r.2 w u = s w u := by
  intro n
  induction n with
  | zero => intro t xk s r h w u _ _; simp only [simPeriods, Res.ok.injEq] at h; rw [← h]
  | succ n ih =>
    intro t xk s r h w u hw hu
    simp only [simPeriods] at h
    obtain ⟨p, h1, h⟩ := bind_ok_inv h
    have hp := simPeriod_only A o t pl xk s h1 w u (fun hh => hu ⟨hh.1, by omega, by omega⟩)
    split at h
    · simp only [Res.ok.injEq] at h; rw [← h]; exact hp
    · rw [ih _ _ _ _ h w u hw (fun hh => hu ⟨hh.1, by omega, by omega⟩)]
      simp only [carryOn, hw, false_and, if_false]
      exact hp

/-- A simulation changes only unknowns of the model and only in the simulated periods, whether it succeeds or not.  The
variables exchanged by goal seeking are excluded. -/
theorem C36_only_endogenous_at_simulated_periods (A : Flo F) (o : SimOpts F) (sort : SortBy) (passes nb : Nat)
    (eqs : List (Eqn F)) (e : Endo) (exos : List Nat) (names : List (Option Nat)) (t : Int) (n : Nat) (s s' : Store F)
    (ok : Bool) (h : simulate A o sort passes nb eqs e exos names t n s = .ok (ok, s'))
    (w : Nat) (u : Int) (hx : w ∉ exos) (hw : ¬(w ∈ e.posxk ∧ t ≤ u ∧ u < t + n)) : s' w u = s w u := by
  unfold simulate at h
  obtain ⟨b, _, h⟩ := bind_ok_inv h
  exact simPeriods_only A o nb _ exos n t _ s _ h w u hx fun hh => hw ⟨planOf_unks hh.1, hh.2⟩

theorem simPeriods_fails (A : Flo F) (o : SimOpts F) (nb : Nat) (pl : Plan F) (exos : List Nat) :
    ∀ n t xk s s', simPeriods A o nb pl exos n t xk s = .ok (false, s') →
      ∃ k, k < n ∧ ∃ sk, simPeriods A o nb pl exos k t xk s = .ok (true, sk) ∧ Only (unks pl.all) (t + k) sk s' := by
  intro n
  induction n with
  | zero => intro t xk s s' h; simp [simPeriods] at h
  | succ n ih =>
    intro t xk s s' h
    simp only [simPeriods] at h
    obtain ⟨p, h1, h⟩ := bind_ok_inv h
    split at h
    · simp only [Res.ok.injEq, Prod.mk.injEq, true_and] at h
      refine ⟨0, Nat.succ_pos _, s, rfl, ?_⟩
      have := simPeriod_only A o t pl xk s h1
      rw [h] at this
      simpa using this
    · next hp =>
      obtain ⟨k, hk, sk, h2, h3⟩ := ih _ _ _ _ h
      refine ⟨k + 1, by omega, sk, ?_, ?_⟩
      · simp only [simPeriods, h1, Res.bind]
        rw [if_neg hp]
        exact h2
      · have : t + 1 + (k : Int) = t + (k + 1 : Nat) := by omega
        rw [← this]
        exact h3

/-- A simulation that fails has solved a number `k` of periods; what it leaves is the result of simulating these periods, and
only unknowns at the period `t + k` may differ from it. -/
theorem C36_failure_keeps_the_solved_periods (A : Flo F) (o : SimOpts F) (sort : SortBy) (passes nb : Nat)
    (eqs : List (Eqn F)) (e : Endo) (exos : List Nat) (names : List (Option Nat)) (t : Int) (n : Nat) (s s' : Store F)
    (h : simulate A o sort passes nb eqs e exos names t n s = .ok (false, s')) :
    ∃ k, k < n ∧ ∃ sk, simulate A o sort passes nb eqs e exos names t k s = .ok (true, sk) ∧
      ∀ w u, ¬(w ∈ e.posxk ∧ u = t + k) → s' w u = sk w u := by
  unfold simulate at h ⊢
  obtain ⟨b, hb, h⟩ := bind_ok_inv h
  obtain ⟨k, hk, sk, h1, h2⟩ := simPeriods_fails A o nb _ exos n t _ s s' h
  refine ⟨k, hk, sk, ?_, fun w u hw => h2 w u fun hh => hw ⟨planOf_unks hh.1, hh.2⟩⟩
  rw [hb]
  exact h1

/-- In particular the periods after the one that failed are as before. -/
theorem C36_failure_leaves_later_periods (A : Flo F) (o : SimOpts F) (sort : SortBy) (passes nb : Nat)
    (eqs : List (Eqn F)) (e : Endo) (names : List (Option Nat)) (t : Int) (n : Nat) (s s' : Store F)
    (h : simulate A o sort passes nb eqs e [] names t n s = .ok (false, s')) :
    ∃ k : Nat, k < n ∧ ∀ w u, t + k < u → s' w u = s w u := by
  obtain ⟨k, hk, sk, h1, h2⟩ := C36_failure_keeps_the_solved_periods A o sort passes nb eqs e [] names t n s s' h
  refine ⟨k, hk, fun w u hu => ?_⟩
  rw [h2 w u (fun hh => by omega)]
  exact C36_only_endogenous_at_simulated_periods A o sort passes nb eqs e [] names t k s sk true h1 w u (by simp)
    (fun hh => by omega)

/-! ## Examples -/

/-- Variables: 0 and 1 are endogenous, 2 is exogenous.  `0 := 1 / 4 + 2`, `1 := 0 / 2`, which has no value where 2 is
greater than 100. -/
def exEqs : List (Eqn ℚ) :=
  [⟨[some 1, some 2], false, 0, fun s t => .ok (s 1 t / 4 + s 2 t)⟩,
   ⟨[some 0], false, 1, fun s t => .ok (if s 0 t > 100 then ratFlo.na else s 0 t / 2)⟩]

def exOpts : SimOpts ℚ := ⟨mkRat 1 1000, 1, 100, .tm1, newtonDefault, fun _ => 0⟩

/-- The exogenous variable is 10 up to period 2, then 1000. -/
def exStore : Store ℚ := fun w u => if w = 2 then (if u ≤ 2 then 10 else 1000) else 0

/-- Does a simulation end with this code and a store with `P`? -/
def endsWith (r : Res (Bool × Store ℚ)) (ok : Bool) (P : Store ℚ → Bool) : Bool :=
  match r with
  | .ok p => p.1 == ok && P p.2
  | _ => false

/-- Two periods are solved: `0` is near 80/7. -/
example : endsWith (simulate ratFlo exOpts .both 5 6 exEqs (Endo.link 3 [0, 1]) [] [] 1 2 exStore) true
    (fun s => decide (s 0 1 > 11 ∧ s 0 2 > 11 ∧ s 0 2 < 12 ∧ s 0 3 = 0)) = true := by decide +kernel

/-- With a third one the simulation fails there. -/
example : endsWith (simulate ratFlo exOpts .both 5 6 exEqs (Endo.link 3 [0, 1]) [] [] 1 4 exStore) false
    (fun s => decide (s 0 1 > 11 ∧ s 0 2 > 11 ∧ s 0 3 > 1000 ∧ s 0 4 = 0)) = true := by decide +kernel

/-- With goal seeking the value found for an exchanged variable replaces its values in all later periods, also outside of the
simulated ones.  Here equation 0 is solved for its exogenous variable at period 1 only; the values at 3 and 4 are lost. -/
theorem C36_exchange_counterexample :
    endsWith (simulate ratFlo exOpts .both 5 5 (exEqs.take 1) ⟨[2], [some 0, none, some 0]⟩ [2] [] 1 1
        (Store.set exStore 0 1 50)) true
      (fun s => decide (s 2 1 > 49 ∧ s 2 3 = s 2 1 ∧ s 2 4 = s 2 1) && decide (exStore 2 3 = 1000)) = true := by
  decide +kernel

end Iode.Sim
