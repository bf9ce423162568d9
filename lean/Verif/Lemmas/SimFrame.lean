import Verif.Model.SimRun
import Verif.Props.C31

/-!
# What the steps of a simulation can change
-/
namespace Iode.Sim

variable {F : Type}

/-- The stores differ at most at period `t` for the variables in `vs`. -/
def Only (vs : List Nat) (t : Int) (s s' : Store F) : Prop := ∀ w u, ¬(w ∈ vs ∧ u = t) → s' w u = s w u

theorem Only.refl (vs : List Nat) (t : Int) (s : Store F) : Only vs t s s := fun _ _ _ => rfl

theorem Only.trans {vs : List Nat} {t : Int} {a b c : Store F} (h1 : Only vs t a b) (h2 : Only vs t b c) : Only vs t a c :=
  fun w u h => (h2 w u h).trans (h1 w u h)

theorem Only.mono {vs vs' : List Nat} {t : Int} {a b : Store F} (h : Only vs t a b) (hs : ∀ v ∈ vs, v ∈ vs') :
    Only vs' t a b :=
  fun w u hw => h w u fun hh => hw ⟨hs w hh.1, hh.2⟩

theorem Only.set {vs : List Nat} {v : Nat} (hv : v ∈ vs) (t : Int) (s : Store F) (x : F) : Only vs t s (s.set v t x) := by
  intro w u h
  rw [Store.set_other]
  rintro ⟨rfl, rfl⟩
  exact h ⟨hv, rfl⟩

theorem bracketLoop_store (A : Flo F) (q : Eqn F) (v : Nat) (t : Int) (shift : F) (s : Store F) :
    ∀ n x1 x2 f1 f2 p, bracketLoop A q v t shift n x1 x2 f1 f2 s = .ok p → p.2 = s := by
  intro n
  induction n with
  | zero => intro x1 x2 f1 f2 p h; simp only [bracketLoop, Res.ok.injEq] at h; rw [← h]
  | succ n ih =>
    intro x1 x2 f1 f2 p h
    simp only [bracketLoop] at h
    split at h
    · simp only [Res.ok.injEq] at h; rw [← h]
    · split at h
      · obtain ⟨r, h1, h⟩ := bind_ok_inv h
        rw [(fxAt_spec _ _ _ _ _ _ _ h1).1] at h
        exact ih _ _ _ _ _ h
      · obtain ⟨r, h1, h⟩ := bind_ok_inv h
        rw [(fxAt_spec _ _ _ _ _ _ _ h1).1] at h
        exact ih _ _ _ _ _ h

theorem secantLoop_store (A : Flo F) (q : Eqn F) (v : Nat) (t : Int) (shift : F) (s : Store F) :
    ∀ n xl xh fl fh p, secantLoop A q v t shift n xl xh fl fh s = .ok p → p.2 = s := by
  intro n
  induction n with
  | zero => intro xl xh fl fh p h; simp only [secantLoop, Res.ok.injEq] at h; rw [← h]
  | succ n ih =>
    intro xl xh fl fh p h
    simp only [secantLoop] at h
    obtain ⟨r, h1, h⟩ := bind_ok_inv h
    have e := (fxAt_spec _ _ _ _ _ _ _ h1).1
    rw [e] at h
    split at h <;> split at h
    · simp only [Res.ok.injEq] at h; rw [← h]
    · exact ih _ _ _ _ _ h
    · simp only [Res.ok.injEq] at h; rw [← h]
    · exact ih _ _ _ _ _ h

theorem secant_store (A : Flo F) (junk : F) (q : Eqn F) (v : Nat) (t : Int) (s : Store F) {p : F × Store F}
    (h : secant A junk q v t s = .ok p) : p.2 = s := by
  unfold secant at h
  simp only at h
  split at h
  · simp only [Res.ok.injEq] at h; rw [← h]
  · obtain ⟨r0, h0, h⟩ := bind_ok_inv h
    have e0 := (fxAt_spec _ _ _ _ _ _ _ h0).1
    split at h
    · simp only [Res.ok.injEq] at h; rw [← h]; exact e0
    · obtain ⟨⟨b1, b2⟩, hb, h⟩ := bind_ok_inv h
      rw [e0] at hb
      have eb : b2 = s := by
        unfold bracket at hb
        split at hb
        · simp only [Res.ok.injEq, Prod.mk.injEq] at hb; exact hb.2.symm
        · obtain ⟨r1, h1, hb⟩ := bind_ok_inv hb
          obtain ⟨r2, h2, hb⟩ := bind_ok_inv hb
          rw [(fxAt_spec _ _ _ _ _ _ _ h1).1] at h2
          rw [(fxAt_spec _ _ _ _ _ _ _ h2).1] at hb
          exact bracketLoop_store _ _ _ _ _ _ _ _ _ _ _ _ hb
      subst eb
      cases b1 with
      | none => simp only [Res.ok.injEq] at h; rw [← h]
      | some y =>
        obtain ⟨x1, x2⟩ := y
        simp only at h
        obtain ⟨r1, h1, h⟩ := bind_ok_inv h
        obtain ⟨r2, h2, h⟩ := bind_ok_inv h
        rw [(fxAt_spec _ _ _ _ _ _ _ h1).1] at h2
        rw [(fxAt_spec _ _ _ _ _ _ _ h2).1] at h
        split at h <;> exact secantLoop_store _ _ _ _ _ _ _ _ _ _ _ _ h

theorem calcEq_only (A : Flo F) (o : SimOpts F) (t : Int) (q : Unk F) (s : Store F) {p : F × Store F}
    (h : calcEq A o t q s = .ok p) : Only [q.2] t s p.2 := by
  unfold calcEq at h
  split at h
  · unfold zero at h
    obtain ⟨r, h1, h⟩ := bind_ok_inv h
    have h2 : Only [q.2] t s r.2 := fun w u hw =>
      C31_newton_frame A o.newton q.1 q.2 t s r.2 r.1 h1 w u fun hh => hw ⟨List.mem_singleton.2 hh.1, hh.2⟩
    split at h
    · simp only [Res.ok.injEq] at h; rw [← h]; exact h2
    · rw [secant_store _ _ _ _ _ _ h]; exact h2
  · obtain ⟨x, _, h⟩ := bind_ok_inv h
    simp only [Res.ok.injEq] at h
    rw [← h]
    exact Only.refl _ _ _

/-- The unknowns of a list of equations. -/
def unks (qs : List (Unk F)) : List Nat := qs.map (·.2)

theorem calcEq_only' {A : Flo F} {o : SimOpts F} {t : Int} {q : Unk F} {s : Store F} {p : F × Store F}
    (h : calcEq A o t q s = .ok p) {qs : List (Unk F)} (hq : q ∈ qs) : Only (unks qs) t s p.2 :=
  (calcEq_only A o t q s h).mono fun v hv => by
    rw [List.mem_singleton.1 hv]; exact List.mem_map.2 ⟨q, hq, rfl⟩

theorem unks_mem {q : Unk F} {qs : List (Unk F)} (h : q ∈ qs) : q.2 ∈ unks qs := List.mem_map.2 ⟨q, h, rfl⟩

theorem initVals_only (A : Flo F) (m : InitMethod) (t : Int) (all : List (Unk F)) :
    ∀ (qs : List (Unk F)), (∀ q ∈ qs, q ∈ all) → ∀ s, Only (unks all) t s (initVals A m t qs s) := by
  intro qs
  induction qs with
  | nil => intro _ s; exact Only.refl _ _ _
  | cons q qs ih =>
    intro h s
    exact (Only.set (unks_mem (h q (List.mem_cons_self ..))) t s _).trans
      (ih (fun q' hq' => h q' (List.mem_cons_of_mem _ hq')) _)

theorem solveAll_only (A : Flo F) (o : SimOpts F) (t : Int) (all : List (Unk F)) :
    ∀ (qs : List (Unk F)), (∀ q ∈ qs, q ∈ all) → ∀ s s', solveAll A o t qs s = .ok s' → Only (unks all) t s s' := by
  intro qs
  induction qs with
  | nil => intro _ s s' h; simp only [solveAll, Res.ok.injEq] at h; rw [h]; exact Only.refl _ _ _
  | cons q qs ih =>
    intro hs s s' h
    simp only [solveAll] at h
    obtain ⟨p, h1, h⟩ := bind_ok_inv h
    have hq := hs q (List.mem_cons_self ..)
    exact (calcEq_only' h1 hq).trans ((Only.set (unks_mem hq) t p.2 _).trans
      (ih (fun q' hq' => hs q' (List.mem_cons_of_mem _ hq')) _ _ h))

theorem diverge_only (A : Flo F) (o : SimOpts F) (t : Int) (all : List (Unk F)) :
    ∀ (qs : List (Unk F)), (∀ q ∈ qs, q ∈ all) → ∀ s s', diverge A o t qs s = .ok s' → Only (unks all) t s s' := by
  intro qs
  induction qs with
  | nil => intro _ s s' h; simp only [diverge, Res.ok.injEq] at h; rw [h]; exact Only.refl _ _ _
  | cons q qs ih =>
    intro hs s s' h
    simp only [diverge] at h
    obtain ⟨p, h1, h⟩ := bind_ok_inv h
    have hq := hs q (List.mem_cons_self ..)
    split at h
    · simp only [Res.ok.injEq] at h; rw [← h]; exact calcEq_only' h1 hq
    · exact (calcEq_only' h1 hq).trans (ih (fun q' hq' => hs q' (List.mem_cons_of_mem _ hq')) _ _ h)

theorem gaussSeidel_only (A : Flo F) (o : SimOpts F) (relax : F) (t : Int) (all : List (Unk F)) :
    ∀ (qs : List (Unk F)), (∀ q ∈ qs, q ∈ all) → ∀ norm s r, gaussSeidel A o relax t qs norm s = .ok r →
      Only (unks all) t s r.2 := by
  intro qs
  induction qs with
  | nil => intro _ norm s r h; simp only [gaussSeidel, Res.ok.injEq] at h; rw [← h]; exact Only.refl _ _ _
  | cons q qs ih =>
    intro hs norm s r h
    simp only [gaussSeidel] at h
    obtain ⟨p, h1, h⟩ := bind_ok_inv h
    have hq := hs q (List.mem_cons_self ..)
    have hs' : ∀ q ∈ qs, q ∈ all := fun q' hq' => hs q' (List.mem_cons_of_mem _ hq')
    have hc := calcEq_only' h1 hq
    split at h
    · simp only [Res.ok.injEq] at h; rw [← h]; exact hc
    · have step : ∀ (norm' : F) (x : F) (r' : Option (F × List F) × Store F),
          gaussSeidel A o relax t qs norm' (p.2.set q.2 t x) = .ok r' → Only (unks all) t s r'.2 := fun norm' x r' hr =>
        hc.trans ((Only.set (unks_mem hq) t p.2 x).trans (ih hs' _ _ _ hr))
      obtain ⟨r', h2, h⟩ := bind_ok_inv h
      have hr : Only (unks all) t s r'.2 := by
        split at h2 <;> exact step _ _ _ h2
      split at h <;> (simp only [Res.ok.injEq] at h; rw [← h]; exact hr)

theorem jacobiCalc_only (A : Flo F) (o : SimOpts F) (t : Int) (all : List (Unk F)) :
    ∀ (qs : List (Unk F)), (∀ q ∈ qs, q ∈ all) → ∀ s r, jacobiCalc A o t qs s = .ok r → Only (unks all) t s r.2 := by
  intro qs
  induction qs with
  | nil => intro _ s r h; simp only [jacobiCalc, Res.ok.injEq] at h; rw [← h]; exact Only.refl _ _ _
  | cons q qs ih =>
    intro hs s r h
    simp only [jacobiCalc] at h
    obtain ⟨p, h1, h⟩ := bind_ok_inv h
    have hq := hs q (List.mem_cons_self ..)
    have hc := calcEq_only' h1 hq
    split at h
    · simp only [Res.ok.injEq] at h; rw [← h]; exact hc
    · obtain ⟨r', h2, h⟩ := bind_ok_inv h
      have hr := hc.trans (ih (fun q' hq' => hs q' (List.mem_cons_of_mem _ hq')) _ _ h2)
      split at h <;> (simp only [Res.ok.injEq] at h; rw [← h]; exact hr)

theorem jacobiSet_only (A : Flo F) (relax : F) (t : Int) (all : List (Unk F)) :
    ∀ (l : List (Unk F × (F × F))), (∀ q ∈ l, q.1 ∈ all) → ∀ norm s, Only (unks all) t s (jacobiSet A relax t l norm s).2 := by
  intro l
  induction l with
  | nil => intro _ norm s; exact Only.refl _ _ _
  | cons a l ih =>
    intro hs norm s
    obtain ⟨q, xk, x⟩ := a
    have hq := hs _ (List.mem_cons_self ..)
    have hs' : ∀ q ∈ l, q.1 ∈ all := fun q' hq' => hs q' (List.mem_cons_of_mem _ hq')
    simp only [jacobiSet]
    split
    · exact (Only.set (unks_mem hq) t s _).trans (ih hs' _ _)
    · exact (Only.set (unks_mem hq) t s _).trans (ih hs' _ _)

theorem jacobi_only (A : Flo F) (o : SimOpts F) (relax : F) (t : Int) (all qs : List (Unk F)) (hs : ∀ q ∈ qs, q ∈ all)
    (s : Store F) {r : Option (F × List F) × Store F} (h : jacobi A o relax t qs s = .ok r) : Only (unks all) t s r.2 := by
  unfold jacobi at h
  obtain ⟨p, h1, h⟩ := bind_ok_inv h
  have hc := jacobiCalc_only A o t all qs hs _ _ h1
  split at h
  · simp only [Res.ok.injEq] at h; rw [← h]; exact hc
  · simp only [Res.ok.injEq] at h
    rw [← h]
    exact hc.trans (jacobiSet_only A relax t all _ (fun a ha => hs _ (List.of_mem_zip ha).1) _ _)

theorem interdep_only (A : Flo F) (o : SimOpts F) (t : Int) (all qs : List (Unk F)) (hs : ∀ q ∈ qs, q ∈ all)
    (s : Store F) {r : Option (F × List F) × Store F} (h : interdep A o t qs s = .ok r) : Only (unks all) t s r.2 := by
  unfold interdep at h
  split at h
  · exact jacobi_only A o _ t all qs hs s h
  · exact gaussSeidel_only A o _ t all qs hs _ _ _ h

theorem restoreXK_only (t : Int) (all : List (Unk F)) : ∀ (l : List (Unk F × F)), (∀ q ∈ l, q.1 ∈ all) → ∀ s : Store F,
    Only (unks all) t s (l.foldl (fun s p => s.set p.1.2 t p.2) s) := by
  intro l
  induction l with
  | nil => intro _ s; exact Only.refl _ _ _
  | cons a l ih =>
    intro hs s
    exact (Only.set (unks_mem (hs _ (List.mem_cons_self ..))) t s _).trans
      (ih (fun q' hq' => hs q' (List.mem_cons_of_mem _ hq')) _)

/-- The store at the end of the iterations. -/
def Iter.store : Iter F → Store F
  | .conv _ s | .noValue s | .noConv _ s => s

theorem iterate_only (A : Flo F) (o : SimOpts F) (t : Int) (all qs : List (Unk F)) (hs : ∀ q ∈ qs, q ∈ all) :
    ∀ n xk s i, iterate A o t qs n xk s = .ok i → Only (unks all) t s i.store := by
  intro n
  induction n with
  | zero => intro xk s i h; simp only [iterate, Res.ok.injEq] at h; rw [← h]; exact Only.refl _ _ _
  | succ n ih =>
    intro xk s i h
    simp only [iterate] at h
    obtain ⟨r, h1, h⟩ := bind_ok_inv h
    have hc := interdep_only A o t all qs hs s h1
    split at h
    · simp only [Res.ok.injEq] at h; rw [← h]; exact hc
    · split at h
      · simp only [Res.ok.injEq] at h; rw [← h]; exact hc
      · exact hc.trans (ih _ _ _ h)

theorem simPeriod_only (A : Flo F) (o : SimOpts F) (t : Int) (pl : Plan F) (xk : List F) (s : Store F)
    {r : Bool × List F × Store F} (h : simPeriod A o t pl xk s = .ok r) : Only (unks pl.all) t s r.2.2 := by
  have m1 : ∀ q ∈ pl.pre, q ∈ pl.all := fun q hq => List.mem_append_left _ (List.mem_append_left _ hq)
  have m2 : ∀ q ∈ pl.inter, q ∈ pl.all := fun q hq => List.mem_append_left _ (List.mem_append_right _ hq)
  have m3 : ∀ q ∈ pl.post, q ∈ pl.all := fun q hq => List.mem_append_right _ hq
  unfold simPeriod at h
  obtain ⟨s1, h1, h⟩ := bind_ok_inv h
  obtain ⟨i, h2, h⟩ := bind_ok_inv h
  have c1 := (initVals_only A o.start t pl.all pl.all (fun _ h => h) s).trans (solveAll_only A o t pl.all _ m1 _ _ h1)
  have c2 := c1.trans (iterate_only A o t pl.all _ m2 _ _ _ _ h2)
  cases i with
  | conv xk' s' =>
    simp only at h
    obtain ⟨s2, h3, h⟩ := bind_ok_inv h
    simp only [Res.ok.injEq] at h
    rw [← h]
    exact (c2.trans (restoreXK_only t pl.all _ (fun a ha => m2 _ (List.of_mem_zip ha).1) _)).trans
      (solveAll_only A o t pl.all _ m3 _ _ h3)
  | noValue s' =>
    simp only [Res.ok.injEq] at h
    rw [← h]
    exact c2
  | noConv xk' s' =>
    simp only at h
    obtain ⟨s2, h3, h⟩ := bind_ok_inv h
    simp only [Res.ok.injEq] at h
    rw [← h]
    exact (c2.trans (restoreXK_only t pl.all _ (fun a ha => m2 _ (List.of_mem_zip ha).1) _)).trans
      (diverge_only A o t pl.all _ m2 _ _ h3)

end Iode.Sim
