import Verif.Model.Newton
import Mathlib.Data.Rat.Defs
import Mathlib.Algebra.Order.Ring.Rat

/-!
# C31: the numerical solver answers with a root or leaves the variable untouched
-/
namespace Iode.Sim

variable {F : Type}

theorem Store.set_same (s : Store F) (v : Nat) (t : Int) (x : F) : s.set v t x v t = x := by
  simp [Store.set]

theorem Store.set_other (s : Store F) {v w : Nat} {t u : Int} (x : F) (h : ¬(w = v ∧ u = t)) : s.set v t x w u = s w u := by
  simp [Store.set, h]

theorem Store.set_set (s : Store F) (v : Nat) (t : Int) (x y : F) : (s.set v t x).set v t y = s.set v t y := by
  funext w u; simp only [Store.set]; split <;> rfl

theorem Store.set_self (s : Store F) (v : Nat) (t : Int) : s.set v t (s v t) = s := by
  funext w u; simp only [Store.set]; split
  · next h => rw [h.1, h.2]
  · rfl

theorem Store.set_back (s : Store F) (v : Nat) (t : Int) (x : F) : (s.set v t x).set v t (s v t) = s := by
  rw [Store.set_set, Store.set_self]

theorem bind_ok_inv {α β : Type} {x : Res α} {f : α → Res β} {b : β} (h : x.bind f = .ok b) :
    ∃ a, x = .ok a ∧ f a = .ok b := by
  cases x with
  | ok a => exact ⟨a, rfl, h⟩
  | err => simp [Res.bind] at h
  | ub => simp [Res.bind] at h

/-- Stored at `v`, the value `x` makes the formula of `q` a number that differs from `target` by less than `tol`. -/
def Root (A : Flo F) (q : Eqn F) (v : Nat) (t : Int) (s : Store F) (target tol x : F) : Prop :=
  ∃ y, q.exec (s.set v t x) t = .ok y ∧ A.isNum y = true ∧ A.lt (A.abs (A.sub y target)) tol = true

theorem newtonLoop_spec (A : Flo F) (q : Eqn F) (v : Nat) (t : Int) (shift eps oldx : F) :
    ∀ n x s p, newtonLoop A q v t shift eps oldx n x s = .ok p →
      (p = (A.na, s.set v t oldx)) ∨ (p.2 = s.set v t p.1 ∧ Root A q v t s shift eps p.1) := by
  intro n
  induction n with
  | zero => intro x s p h; simp only [newtonLoop, Res.ok.injEq] at h; exact Or.inl h.symm
  | succ n ih =>
    intro x s p h
    simp only [newtonLoop] at h
    obtain ⟨fx, h1, h⟩ := bind_ok_inv h
    split at h
    · simp only [Res.ok.injEq] at h; exact Or.inl h.symm
    · next hn =>
      split at h
      · next hlt =>
        simp only [Res.ok.injEq] at h
        subst h
        exact Or.inr ⟨rfl, fx, h1, by simpa using hn, hlt⟩
      · obtain ⟨fxh, _, h⟩ := bind_ok_inv h
        split at h
        · simp only [Res.ok.injEq] at h; exact Or.inl h.symm
        · split at h
          · simp only [Res.ok.injEq] at h; exact Or.inl h.symm
          · obtain ⟨fy, _, h⟩ := bind_ok_inv h
            have := ih _ _ _ h
            simp only [Root, Store.set_set] at this
            exact this

theorem newtonSub_spec (A : Flo F) (o : NewtonOpts F) (algo : Bool) (q : Eqn F) (v : Nat) (t : Int) (s : Store F)
    {p : F × Store F} (h : newtonSub A o algo q v t s = .ok p) :
    p = (A.na, s) ∨
      (p.2 = s.set v t p.1 ∧ Root A q v t s (shiftOf A q v t s) (tolOf A o algo q v t s) p.1 ∧ A.isNum (s v t) = true) := by
  unfold newtonSub at h
  split at h
  · simp only [Res.ok.injEq] at h; exact Or.inl h.symm
  · next hn =>
    split at h
    · simp only [Res.ok.injEq] at h; exact Or.inl h.symm
    · rcases newtonLoop_spec A q v t _ _ _ _ _ _ _ h with h | h
      · rw [Store.set_self] at h; exact Or.inl h
      · exact Or.inr ⟨h.1, h.2, by simpa using hn⟩

/-- If Newton's method answers with a number, this number is stored and is a root within the tolerance: `KSIM_NEWTON_EPS`, or
this times the absolute value of the unknown (of the variable the equation is named after, if another one is solved for)
where this is larger than 1. -/
theorem C31_newton_root (A : Flo F) (hna : A.isNum A.na = false) (o : NewtonOpts F) (q : Eqn F) (v : Nat) (t : Int)
    (s s' : Store F) (x : F) (h : newton A o q v t s = .ok (x, s')) (hx : A.isNum x = true) :
    s' = s.set v t x ∧
      (Root A q v t s (shiftOf A q v t s) o.eps x ∨
        ∃ m, m = A.abs (if v = q.own ∨ q.dup = true then s v t else s q.own t) ∧ A.lt (A.rat 1 1) m = true ∧
          Root A q v t s (shiftOf A q v t s) (A.mul o.eps m) x) := by
  unfold newton at h
  obtain ⟨p, h1, h⟩ := bind_ok_inv h
  have e1 := newtonSub_spec A o _ q v t s h1
  split at h
  · next hp =>
    simp only [Res.ok.injEq] at h
    subst h
    rcases e1 with e1 | ⟨e1, e2, _⟩
    · injection e1 with a b; subst a; simp [hna] at hx
    · exact ⟨e1, Or.inl (by simpa [tolOf] using e2)⟩
  · next hp =>
    have key : p.2 = s := by
      rcases e1 with e1 | ⟨e1, _, _⟩
      · rw [e1]
      · exfalso
        rcases newtonSub_spec A o _ q v t p.2 h with e2 | ⟨_, _, e2⟩
        · injection e2 with a b; subst a; simp [hna] at hx
        · rw [e1, Store.set_same] at e2; exact hp e2
    rw [key] at h
    rcases newtonSub_spec A o _ q v t s h with e2 | ⟨e2, e3, _⟩
    · injection e2 with a b; subst a; simp [hna] at hx
    · refine ⟨e2, ?_⟩
      by_cases hb : v = q.own ∨ q.dup = true
      · by_cases hl : A.lt (A.rat 1 1) (A.abs (s v t)) = true
        · refine Or.inr ⟨_, rfl, by simpa [hb] using hl, ?_⟩
          simpa [tolOf, hb, hl] using e3
        · exact Or.inl (by simpa [tolOf, hb, hl] using e3)
      · by_cases hl : A.lt (A.rat 1 1) (A.abs (s q.own t)) = true
        · refine Or.inr ⟨_, rfl, by simpa [hb] using hl, ?_⟩
          simpa [tolOf, hb, hl] using e3
        · exact Or.inl (by simpa [tolOf, hb, hl] using e3)

/-- If Newton's method fails, every variable has its old value again, provided that the formula is missing where the unknown
is. -/
theorem C31_newton_failure_restores (A : Flo F) (o : NewtonOpts F) (q : Eqn F) (v : Nat) (t : Int) (s s' : Store F) (x : F)
    (hq : ∀ z y, A.isNum z = false → q.exec (s.set v t z) t = .ok y → A.isNum y = false)
    (h : newton A o q v t s = .ok (x, s')) (hx : A.isNum x = false) : s' = s := by
  have sub : ∀ algo p, newtonSub A o algo q v t s = .ok p → A.isNum p.1 = false → p.2 = s := by
    intro algo p hp hn
    rcases newtonSub_spec A o _ q v t s hp with e | ⟨_, ⟨y, e1, e2, _⟩, _⟩
    · rw [e]
    · simp [hq _ _ hn e1] at e2
  unfold newton at h
  obtain ⟨p, h1, h⟩ := bind_ok_inv h
  split at h
  · next hp =>
    simp only [Res.ok.injEq] at h
    subst h
    simp [hx] at hp
  · next hp =>
    rw [sub _ _ h1 (by simpa using hp)] at h
    exact sub _ _ h hx

/-- Newton's method never changes another variable or another period, whatever it answers. -/
theorem C31_newton_frame (A : Flo F) (o : NewtonOpts F) (q : Eqn F) (v : Nat) (t : Int) (s s' : Store F) (x : F)
    (h : newton A o q v t s = .ok (x, s')) (w : Nat) (u : Int) (hw : ¬(w = v ∧ u = t)) : s' w u = s w u := by
  have sub : ∀ algo s p, newtonSub A o algo q v t s = .ok p → p.2 w u = s w u := by
    intro algo s p hp
    rcases newtonSub_spec A o _ q v t s hp with e | ⟨e, _⟩
    · rw [e]
    · rw [e, Store.set_other _ _ hw]
  unfold newton at h
  obtain ⟨p, h1, h⟩ := bind_ok_inv h
  split at h
  · simp only [Res.ok.injEq] at h
    subst h
    exact sub _ _ _ h1
  · exact (sub _ _ _ h).trans (sub _ _ _ h1)

theorem fxAt_spec (A : Flo F) (q : Eqn F) (v : Nat) (t : Int) (shift : F) (s : Store F) (x : F) {p : F × Store F}
    (h : fxAt A q v t shift s x = .ok p) : p.2 = s ∧ ∃ y, q.exec (s.set v t x) t = .ok y ∧ p.1 = A.sub y shift := by
  unfold fxAt at h
  obtain ⟨y, h1, h⟩ := bind_ok_inv h
  simp only [Res.ok.injEq] at h
  subst h
  exact ⟨Store.set_back _ _ _ _, y, h1, rfl⟩

/-- The residual at `x` is computed to be `r`. -/
def At (A : Flo F) (q : Eqn F) (v : Nat) (t : Int) (shift : F) (s : Store F) (x r : F) : Prop :=
  ∃ y, q.exec (s.set v t x) t = .ok y ∧ r = A.sub y shift

theorem bracketLoop_spec (A : Flo F) (q : Eqn F) (v : Nat) (t : Int) (shift : F) (s : Store F) :
    ∀ n x1 x2 f1 f2 p, At A q v t shift s x1 f1 → At A q v t shift s x2 f2 →
      bracketLoop A q v t shift n x1 x2 f1 f2 s = .ok p →
      p.2 = s ∧ ∀ y1 y2, p.1 = some (y1, y2) →
        ∃ g1 g2, At A q v t shift s y1 g1 ∧ At A q v t shift s y2 g2 ∧ A.lt (A.mul g1 g2) (A.rat 0 1) = true := by
  intro n
  induction n with
  | zero =>
    intro x1 x2 f1 f2 p _ _ h
    simp only [bracketLoop, Res.ok.injEq] at h
    subst h
    exact ⟨rfl, fun _ _ h => by cases h⟩
  | succ n ih =>
    intro x1 x2 f1 f2 p a1 a2 h
    simp only [bracketLoop] at h
    split at h
    · next hl =>
      simp only [Res.ok.injEq] at h
      subst h
      refine ⟨rfl, fun y1 y2 h => ?_⟩
      simp only [Option.some.injEq, Prod.mk.injEq] at h
      obtain ⟨rfl, rfl⟩ := h
      exact ⟨f1, f2, a1, a2, hl⟩
    · split at h
      · obtain ⟨r, h1, h⟩ := bind_ok_inv h
        obtain ⟨e, e'⟩ := fxAt_spec _ _ _ _ _ _ _ h1
        rw [e] at h
        exact ih _ _ _ _ _ e' a2 h
      · obtain ⟨r, h1, h⟩ := bind_ok_inv h
        obtain ⟨e, e'⟩ := fxAt_spec _ _ _ _ _ _ _ h1
        rw [e] at h
        exact ih _ _ _ _ _ a1 e' h

theorem bracket_spec (A : Flo F) (q : Eqn F) (v : Nat) (t : Int) (shift junk x1 : F) (s : Store F)
    {p : Option (F × F) × Store F} (h : bracket A q v t shift junk x1 s = .ok p) :
    p.2 = s ∧ ∀ y1 y2, p.1 = some (y1, y2) →
      ∃ g1 g2, At A q v t shift s y1 g1 ∧ At A q v t shift s y2 g2 ∧ A.lt (A.mul g1 g2) (A.rat 0 1) = true := by
  unfold bracket at h
  split at h
  · simp only [Res.ok.injEq] at h
    subst h
    exact ⟨rfl, fun _ _ h => by cases h⟩
  · obtain ⟨r1, h1, h⟩ := bind_ok_inv h
    obtain ⟨r2, h2, h⟩ := bind_ok_inv h
    obtain ⟨e1, a1⟩ := fxAt_spec _ _ _ _ _ _ _ h1
    rw [e1] at h2
    obtain ⟨e2, a2⟩ := fxAt_spec _ _ _ _ _ _ _ h2
    rw [e2] at h
    exact bracketLoop_spec A q v t shift s _ _ _ _ _ _ a1 a2 h

/-- `x` has a residual below one millionth, or it is one end of an interval over which the sign of the residual changes. -/
def Straddles (A : Flo F) (q : Eqn F) (v : Nat) (t : Int) (shift : F) (s : Store F) (x : F) : Prop :=
  (∃ r, At A q v t shift s x r ∧ A.lt (A.abs r) (A.rat 1 1000000) = true) ∨
    ∃ z r r', At A q v t shift s x r ∧ At A q v t shift s z r' ∧ A.lt r (A.rat 0 1) ≠ A.lt r' (A.rat 0 1)

theorem secantLoop_spec (A : Flo F) (q : Eqn F) (v : Nat) (t : Int) (shift : F) (s : Store F) :
    ∀ n xl xh fl fh p, At A q v t shift s xl fl → At A q v t shift s xh fh → A.lt fl (A.rat 0 1) = true →
      A.lt fh (A.rat 0 1) = false → secantLoop A q v t shift n xl xh fl fh s = .ok p →
      p.2 = s ∧ (p.1 = A.na ∨ Straddles A q v t shift s p.1) := by
  intro n
  induction n with
  | zero =>
    intro xl xh fl fh p _ _ _ _ h
    simp only [secantLoop, Res.ok.injEq] at h
    subst h
    exact ⟨rfl, Or.inl rfl⟩
  | succ n ih =>
    intro xl xh fl fh p al ah hl hh h
    simp only [secantLoop] at h
    obtain ⟨r, h1, h⟩ := bind_ok_inv h
    obtain ⟨e, a⟩ := fxAt_spec _ _ _ _ _ _ _ h1
    by_cases hs : A.lt r.1 (A.rat 0 1) = true
    · simp only [hs, if_true] at h
      split at h
      · simp only [Res.ok.injEq] at h
        subst h
        exact ⟨e, Or.inr (Or.inr ⟨xh, r.1, fh, a, ah, by simp [hs, hh]⟩)⟩
      · rw [e] at h
        exact ih _ _ _ _ _ a ah hs hh h
    · replace hs : A.lt r.1 (A.rat 0 1) = false := by simpa using hs
      simp only [hs, Bool.false_eq_true, if_false] at h
      split at h
      · simp only [Res.ok.injEq] at h
        subst h
        exact ⟨e, Or.inr (Or.inr ⟨xl, r.1, fl, a, al, by simp [hs, hl]⟩)⟩
      · rw [e] at h
        exact ih _ _ _ _ _ al a hl hs h

/-- The secant method leaves all variables as they are (its caller stores the answer).  What it answers has a residual below
one millionth or is the end of an interval over which the residual changes its sign - nothing says that the residual is small
there, see `C31_secant_counterexample`. -/
theorem C31_secant_partial (A : Flo F) (hsign : ∀ a b, A.lt (A.mul a b) (A.rat 0 1) = true →
      A.lt a (A.rat 0 1) ≠ A.lt b (A.rat 0 1))
    (junk : F) (q : Eqn F) (v : Nat) (t : Int) (s s' : Store F) (x : F)
    (h : secant A junk q v t s = .ok (x, s')) :
    s' = s ∧ (x = A.na ∨ Straddles A q v t (shiftOf A q v t s) s x) := by
  unfold secant at h
  simp only at h
  split at h
  · simp only [Res.ok.injEq, Prod.mk.injEq] at h
    exact ⟨h.2.symm, Or.inl h.1.symm⟩
  · obtain ⟨r0, h0, h⟩ := bind_ok_inv h
    obtain ⟨e0, a0⟩ := fxAt_spec _ _ _ _ _ _ _ h0
    split at h
    · next hl =>
      simp only [Res.ok.injEq, Prod.mk.injEq] at h
      obtain ⟨rfl, rfl⟩ := h
      exact ⟨e0, Or.inr (Or.inl ⟨r0.1, a0, hl⟩)⟩
    · obtain ⟨b, hb, h⟩ := bind_ok_inv h
      rw [e0] at hb
      obtain ⟨eb, ab⟩ := bracket_spec _ _ _ _ _ _ _ _ hb
      rcases b with ⟨b1, b2⟩
      simp only at eb ab h
      subst eb
      cases b1 with
      | none =>
        simp only [Res.ok.injEq, Prod.mk.injEq] at h
        exact ⟨h.2.symm, Or.inl h.1.symm⟩
      | some y =>
        obtain ⟨x1, x2⟩ := y
        simp only at h
        obtain ⟨g1, g2, ag1, ag2, hg⟩ := ab x1 x2 rfl
        obtain ⟨r1, h1, h⟩ := bind_ok_inv h
        obtain ⟨e1, y1, a1, c1⟩ := fxAt_spec _ _ _ _ _ _ _ h1
        obtain ⟨r2, h2, h⟩ := bind_ok_inv h
        rw [e1] at h2
        obtain ⟨e2, y2, a2, c2⟩ := fxAt_spec _ _ _ _ _ _ _ h2
        rw [e2] at h
        have s1 : g1 = r1.1 := by
          obtain ⟨z, hz, hz'⟩ := ag1
          rw [a1] at hz
          cases hz
          rw [hz', c1]
        have s2 : g2 = r2.1 := by
          obtain ⟨z, hz, hz'⟩ := ag2
          rw [a2] at hz
          cases hz
          rw [hz', c2]
        subst s1 s2
        have hs := hsign _ _ hg
        split at h
        · next hn =>
          have := secantLoop_spec A q v t _ _ _ _ _ _ _ _ ag1 ag2 hn (by simpa [hn] using hs) h
          exact this
        · next hn =>
          have hn' : A.lt r1.1 (A.rat 0 1) = false := by simpa using hn
          have := secantLoop_spec A q v t _ _ _ _ _ _ _ _ ag2 ag1 (by simpa [hn'] using hs) hn' h
          exact this

/-- `zero`, the solver used by the simulation: it answers with a stored root, or with a value found by the secant method
without touching the variables.  Missing for the full statement: a bound on the residual in the second case. -/
theorem C31_zero_partial (A : Flo F) (hna : A.isNum A.na = false)
    (hsign : ∀ a b, A.lt (A.mul a b) (A.rat 0 1) = true → A.lt a (A.rat 0 1) ≠ A.lt b (A.rat 0 1))
    (o : NewtonOpts F) (junk : F) (q : Eqn F) (v : Nat) (t : Int) (s s' : Store F) (x : F)
    (hq : ∀ z y, A.isNum z = false → q.exec (s.set v t z) t = .ok y → A.isNum y = false)
    (h : zero A o junk q v t s = .ok (x, s')) :
    (A.isNum x = true ∧ s' = s.set v t x ∧ ∃ tol, Root A q v t s (shiftOf A q v t s) tol x ∧
        (tol = o.eps ∨ tol = A.mul o.eps (A.abs (if v = q.own ∨ q.dup = true then s v t else s q.own t)))) ∨
      (s' = s ∧ (x = A.na ∨ Straddles A q v t (shiftOf A q v t s) s x)) := by
  unfold zero at h
  obtain ⟨p, h1, h⟩ := bind_ok_inv h
  split at h
  · next hp =>
    simp only [Res.ok.injEq] at h
    subst h
    obtain ⟨e, r⟩ := C31_newton_root A hna o q v t s s' x h1 hp
    refine Or.inl ⟨hp, e, ?_⟩
    rcases r with r | ⟨m, rfl, _, r⟩
    · exact ⟨_, r, Or.inl rfl⟩
    · exact ⟨_, r, Or.inr rfl⟩
  · next hp =>
    have e := C31_newton_failure_restores A o q v t s p.2 p.1 hq h1 (by simpa using hp)
    rw [e] at h
    exact Or.inr (C31_secant_partial A hsign junk q v t s s' x h)

/-! ## The hypotheses can be met, and why the secant method is left out -/

/-- Exact rational numbers with the encoding of missing values of the code (api/constants.h). -/
def ratFlo : Flo ℚ where
  na := -2 * 10 ^ 37
  isNum x := decide (-1 * 10 ^ 37 ≤ x)
  isZero x := decide (-1 < x * 10 ^ 36 ∧ x * 10 ^ 36 < 1)
  rat n d := mkRat n d
  add a b := a + b
  sub a b := a - b
  mul a b := a * b
  div a b := a / b
  abs a := if a < 0 then -a else a
  lt a b := decide (a < b)
  eq a b := decide (a = b)

/-- An equation with two occurrences of the unknown, variable 0. -/
def eqnOf (f : ℚ → ℚ) : Eqn ℚ where
  objs := [some 0]
  dup := true
  own := 0
  exec s t := .ok (f (s 0 t))

def at1 : Store ℚ := fun _ _ => 1

def newtonDefault : NewtonOpts ℚ := ⟨mkRat 1 1000000, 50⟩

/-- Does the solver answer with a value for which `P` holds? -/
def answers (r : Res (ℚ × Store ℚ)) (P : ℚ → Bool) : Bool :=
  match r with
  | .ok p => P p.1
  | _ => false

/-- The same for the value and the store. -/
def leaves (r : Res (ℚ × Store ℚ)) (P : ℚ → Store ℚ → Bool) : Bool :=
  match r with
  | .ok p => P p.1 p.2
  | _ => false

theorem answers_iff {r : Res (ℚ × Store ℚ)} {P : ℚ → Bool} : answers r P = true ↔ ∃ x s', r = .ok (x, s') ∧ P x = true := by
  constructor
  · intro h
    match r, h with
    | .ok (x, s'), h => exact ⟨x, s', rfl, h⟩
  · rintro ⟨x, s', rfl, h⟩; exact h

/-- `4 Y² - 9 = 0` from 1: after some steps a root near 3/2 is found. -/
example : ∃ x s', newton ratFlo newtonDefault (eqnOf fun y => 4 * y * y - 9) 0 3 at1 = .ok (x, s') ∧
    (ratFlo.isNum x && decide (149 / 100 < x ∧ x < 151 / 100)) = true :=
  answers_iff.1 (by decide +kernel)

/-- `Y² + 1 = 0`: Newton's method fails. -/
example : ∃ x s', newton ratFlo ⟨mkRat 1 1000000, 4⟩ (eqnOf fun y => y * y + 1) 0 3 at1 = .ok (x, s') ∧
    (!ratFlo.isNum x) = true :=
  answers_iff.1 (by decide +kernel)

theorem ratFlo_sign (a b : ℚ) (h : ratFlo.lt (ratFlo.mul a b) (ratFlo.rat 0 1) = true) :
    ratFlo.lt a (ratFlo.rat 0 1) ≠ ratFlo.lt b (ratFlo.rat 0 1) := by
  have e : ratFlo.rat 0 1 = (0 : ℚ) := by decide +kernel
  rw [e] at h ⊢
  simp only [ratFlo, decide_eq_true_eq] at h
  simp only [ratFlo, ne_eq, decide_eq_decide]
  rcases mul_neg_iff.1 h with ⟨h1, h2⟩ | ⟨h1, h2⟩
  · intro hh; exact absurd (hh.2 h2) (not_lt.2 h1.le)
  · intro hh; exact absurd (hh.1 h1) (not_lt.2 h2.le)

/-- An equation for another variable than the one solved for: `Y0 = Y1² + Y1` for `Y1`, with `Y0 = 6`.  The second attempt,
with the larger tolerance, is needed when the number of steps is limited. -/
example : ∃ x s', newton ratFlo ⟨mkRat 1 20, 3⟩ ⟨[some 1], false, 0, fun s t => .ok (s 1 t * s 1 t + s 1 t)⟩ 1 3
      (Store.set (fun _ _ => 1) 0 3 6) = .ok (x, s') ∧ (ratFlo.isNum x && decide (19 / 10 < x ∧ x < 21 / 10)) = true :=
  answers_iff.1 (by decide +kernel)

/-- Without a root nor a small residual: the left-hand side is -1 below 1 and +1 from 1 on.  The secant method halves the
interval until its ends agree to one millionth and answers with a value at which the residual is -1. -/
theorem C31_secant_counterexample :
    ∃ x s', zero ratFlo newtonDefault 0 (eqnOf fun y => if y < 1 then -1 else 1) 0 3 at1 = .ok (x, s') ∧
      (ratFlo.isNum x && decide ((if x < 1 then (-1 : ℚ) else 1) = -1)) = true :=
  answers_iff.1 (by decide +kernel)

/-- A missing value of the formula is taken for a large negative residual: for a left-hand side that is missing below 1 and 1
from 1 on, the secant method answers with a value at which the residual is 1. -/
theorem C31_secant_missing_counterexample :
    ∃ x s', zero ratFlo newtonDefault 0 (eqnOf fun y => if y < 1 then ratFlo.na else 1) 0 3 at1 = .ok (x, s') ∧
      (ratFlo.isNum x && decide ((if x < 1 then ratFlo.na else (1 : ℚ)) = 1)) = true :=
  answers_iff.1 (by decide +kernel)

/-- The answer of the secant method depends on the content of a variable that was never given a value. -/
theorem C31_secant_uninitialised_counterexample :
    answers (secant ratFlo 0 (eqnOf fun y => y - 2) 0 3 at1) (fun x => x == 2) = true ∧
      answers (secant ratFlo 1 (eqnOf fun y => y - 2) 0 3 at1) (fun x => !ratFlo.isNum x) = true := by
  constructor <;> decide +kernel

/-- Where the formula is a number although the unknown is missing, Newton's method may fail and leave its last guess. -/
theorem C31_newton_restore_counterexample :
    leaves (newton ratFlo newtonDefault
        (eqnOf fun y => if ratFlo.isNum y then (if y = 1 then 2 * 10 ^ 37 else 2 * 10 ^ 37 + 1 / 10000) else 0) 0 3 at1)
      (fun x s' => !ratFlo.isNum x && s' 0 3 != 1) = true := by
  decide +kernel

end Iode.Sim
