import Verif.Model.Goal
import Verif.Props.C31
import Verif.Props.C33
import Mathlib.Data.List.Perm.Subperm

/-!
# The search of goal seeking
-/
namespace Iode.Sim

/-- The tables before any exchange. -/
def Endo.Fresh (owns : List Nat) (e : Endo) : Prop :=
  e.posxk = owns ∧ ∀ p j, e.eqOf p = some j ↔ owns[j]? = some p

/-- A chain of equations from `i` on: each but the last contains the variable of the next, the last contains `exo`. -/
inductive Chain (owns : List Nat) (objss : List (List (Option Nat))) (exo : Nat) : Nat → List Nat → Prop where
  | last {i : Nat} : some exo ∈ objss.getD i [] → Chain owns objss exo i []
  | step {i j p : Nat} {r : List Nat} : i ≠ j → owns[j]? = some p → some p ∈ objss.getD i [] →
      Chain owns objss exo j r → Chain owns objss exo i (j :: r)

/-- Each equation of a chain gets the variable of the next one, the last gets `exo`. -/
def shiftC (owns : List Nat) (exo : Nat) : Nat → List Nat → Endo → Endo
  | i, [], e => e.put i exo
  | i, j :: r, e => (shiftC owns exo j r e).put i (owns.getD j 0)

variable {owns : List Nat} {objss : List (List (Option Nat))} {exo : Nat} {e : Endo}

theorem findIdx_eq {p i : Nat} (h : owns.findIdx? (· = p) = some i) : owns[i]? = some p := by
  rw [List.findIdx?_eq_some_iff_getElem] at h
  obtain ⟨h1, h2, _⟩ := h
  simp only [decide_eq_true_eq] at h2
  rw [List.getElem?_eq_getElem h1, h2]

theorem eqNamed_ok {p i : Nat} (h : eqNamed owns p = .ok i) : owns[i]? = some p := by
  unfold eqNamed at h
  cases hf : owns.findIdx? (· = p) with
  | none => rw [hf] at h; cases h
  | some j =>
    rw [hf] at h
    simp only [Res.ofOption, Res.ok.injEq] at h
    subst h
    exact findIdx_eq hf

theorem own_inj (hd : owns.Nodup) {i j p : Nat} (h1 : owns[i]? = some p) (h2 : owns[j]? = some p) : i = j := by
  obtain ⟨a, b⟩ := List.getElem?_eq_some_iff.1 h1
  obtain ⟨c, d⟩ := List.getElem?_eq_some_iff.1 h2
  exact (List.Nodup.getElem_inj_iff hd).1 (b.trans d.symm)

/-- What the search gives when it succeeds or fails. -/
def FindSpec (owns : List Nat) (objss : List (List (Option Nat))) (exo : Nat) (e : Endo) (p : Nat) (k : Seek)
    (r : Bool × Seek) : Prop :=
  (r.1 = false → r.2.endo = e ∧ ∀ j ∈ k.path, j ∈ r.2.path) ∧
  (r.1 = true → ∃ i tail, owns[i]? = some p ∧ Chain owns objss exo i tail ∧ tail.Nodup ∧ (∀ j ∈ tail, j ∉ k.path) ∧
    r.2.endo = shiftC owns exo i tail e)

theorem scanVars_spec (he : e.Fresh owns) {find : Nat → Seek → Res (Bool × Seek)}
    (H : ∀ p k r, k.endo = e → find p k = .ok r → FindSpec owns objss exo e p k r) (hd : owns.Nodup) (i : Nat) :
    ∀ objs k r, k.endo = e → scanVars find i objs k = .ok r →
      (r.1 = false → r.2.endo = e ∧ ∀ j ∈ k.path, j ∈ r.2.path) ∧
      (r.1 = true → ∃ j tail p, i ≠ j ∧ owns[j]? = some p ∧ some p ∈ objs ∧ Chain owns objss exo j tail ∧
        (j :: tail).Nodup ∧ (∀ x ∈ j :: tail, x ∉ k.path) ∧ r.2.endo = (shiftC owns exo j tail e).put i p) := by
  intro objs
  induction objs with
  | nil =>
    intro k r hk h
    simp only [scanVars, Res.ok.injEq] at h
    subst h
    exact ⟨fun _ => ⟨hk, fun _ h => h⟩, fun h => by cases h⟩
  | cons a objs ih =>
    intro k r hk h
    have skip : scanVars find i objs k = .ok r → _ := fun h => by
      obtain ⟨h1, h2⟩ := ih k r hk h
      refine (⟨h1, fun hr => ?_⟩ : (r.1 = false → r.2.endo = e ∧ ∀ j ∈ k.path, j ∈ r.2.path) ∧
        (r.1 = true → ∃ j tail p, i ≠ j ∧ owns[j]? = some p ∧ some p ∈ a :: objs ∧ Chain owns objss exo j tail ∧
          (j :: tail).Nodup ∧ (∀ x ∈ j :: tail, x ∉ k.path) ∧ r.2.endo = (shiftC owns exo j tail e).put i p))
      obtain ⟨j, tail, p, c1, c2, c3, c4⟩ := h2 hr
      exact ⟨j, tail, p, c1, c2, List.mem_cons_of_mem _ c3, c4⟩
    cases a with
    | none => exact skip (by simpa only [scanVars] using h)
    | some p =>
      simp only [scanVars] at h
      split at h
      · exact skip h
      · next j hj =>
        split at h
        · exact skip h
        · next hc =>
          rw [not_or] at hc
          obtain ⟨r1, h1, h⟩ := bind_ok_inv h
          have hs := H p ⟨k.endo, j :: k.path⟩ r1 hk h1
          split at h
          · next ht =>
            simp only [Res.ok.injEq] at h
            subst h
            refine ⟨(fun h => by cases h), fun _ => ?_⟩
            obtain ⟨i', tail, c1, c2, c3, c4, c5⟩ := hs.2 ht
            have hji : owns[j]? = some p := by rw [hk] at hj; exact (he.2 p j).1 hj
            have : i' = j := own_inj hd c1 hji
            subst this
            refine ⟨i', tail, p, hc.1, hji, List.mem_cons_self .., c2, List.nodup_cons.2 ⟨?_, c3⟩, ?_, ?_⟩
            · exact fun hh => c4 i' hh (List.mem_cons_self ..)
            · intro x hx
              rcases List.mem_cons.1 hx with rfl | hx
              · exact hc.2
              · exact fun hh => c4 x hx (List.mem_cons_of_mem _ hh)
            · simp only
              rw [c5]
          · next ht =>
            have hf : r1.1 = false := by simpa using ht
            obtain ⟨g1, g2⟩ := hs.1 hf
            obtain ⟨d1, d2⟩ := ih r1.2 r g1 h
            refine ⟨fun hr => ⟨(d1 hr).1, fun x hx => (d1 hr).2 x (g2 x (List.mem_cons_of_mem _ hx))⟩, fun hr => ?_⟩
            obtain ⟨j', tail, p', c1, c2, c3, c4, c5, c6, c7⟩ := d2 hr
            exact ⟨j', tail, p', c1, c2, List.mem_cons_of_mem _ c3, c4, c5,
              fun x hx hh => c6 x hx (g2 x (List.mem_cons_of_mem _ hh)), c7⟩

theorem findPath_spec (he : e.Fresh owns) (hd : owns.Nodup) : ∀ fuel p k r, k.endo = e →
    findPath owns objss exo fuel p k = .ok r → FindSpec owns objss exo e p k r := by
  intro fuel
  induction fuel with
  | zero =>
    intro p k r hk h
    simp only [findPath, Res.ok.injEq] at h
    subst h
    exact ⟨fun _ => ⟨hk, fun _ h => h⟩, fun h => by cases h⟩
  | succ fuel ih =>
    intro p k r hk h
    simp only [findPath] at h
    obtain ⟨i, h1, h⟩ := bind_ok_inv h
    have hi := eqNamed_ok h1
    split at h
    · cases h
    · next poseq hp =>
      have : poseq = i := by rw [hk] at hp; exact own_inj hd ((he.2 p poseq).1 hp) hi
      subst this
      split at h
      · next hx =>
        simp only [Res.ok.injEq] at h
        subst h
        refine ⟨(fun h => by cases h), fun _ => ⟨poseq, [], hi, .last hx, List.nodup_nil, (fun _ h => by cases h), ?_⟩⟩
        simp only [hk, shiftC]
      · obtain ⟨d1, d2⟩ := scanVars_spec he ih hd poseq _ k r hk h
        refine ⟨d1, fun hr => ?_⟩
        obtain ⟨j, tail, p', c1, c2, c3, c4, c5, c6, c7⟩ := d2 hr
        refine ⟨poseq, j :: tail, hi, .step c1 c2 c3 c4, c5, c6, ?_⟩
        rw [c7, shiftC, List.getD_eq_getElem?_getD, c2]
        rfl

/-- The search of an equation is finished: it does not contain `exo` and the equations it uses are marked. -/
def Done (owns : List Nat) (objss : List (List (Option Nat))) (exo : Nat) (path : List Nat) (i : Nat) : Prop :=
  some exo ∉ objss.getD i [] ∧ ∀ p j, some p ∈ objss.getD i [] → owns[j]? = some p → j = i ∨ j ∈ path

theorem Done.mono {path path' : List Nat} {i : Nat} (h : Done owns objss exo path i) (hs : ∀ j ∈ path, j ∈ path') :
    Done owns objss exo path' i :=
  ⟨h.1, fun p j h1 h2 => (h.2 p j h1 h2).imp id (hs j)⟩

/-- Marked equations exist and are marked once. -/
def Marks (owns : List Nat) (path : List Nat) : Prop := path.Nodup ∧ ∀ j ∈ path, j < owns.length

/-- What a search that fails leaves. -/
def FailSpec (owns : List Nat) (objss : List (List (Option Nat))) (exo : Nat) (k : Seek) (r : Seek) : Prop :=
  Marks owns r.path ∧ (∀ j ∈ k.path, j ∈ r.path) ∧ k.path.length ≤ r.path.length ∧
    ∀ j ∈ r.path, j ∉ k.path → Done owns objss exo r.path j

theorem scanVars_fail (he : e.Fresh owns) (hd : owns.Nodup) {fuel : Nat}
    (H : ∀ p i k r, k.endo = e → Marks owns k.path → owns.length + 1 ≤ fuel + k.path.length → owns[i]? = some p →
      findPath owns objss exo fuel p k = .ok (false, r) → FailSpec owns objss exo k r ∧ Done owns objss exo r.path i)
    (i : Nat) : ∀ objs k r, k.endo = e → Marks owns k.path → owns.length ≤ fuel + k.path.length →
      scanVars (findPath owns objss exo fuel) i objs k = .ok (false, r) →
      FailSpec owns objss exo k r ∧ ∀ p j, some p ∈ objs → owns[j]? = some p → j = i ∨ j ∈ r.path := by
  intro objs
  induction objs with
  | nil =>
    intro k r hk hm _ h
    simp only [scanVars, Res.ok.injEq, Prod.mk.injEq, true_and] at h
    subst h
    exact ⟨⟨hm, fun _ h => h, le_rfl, fun j h1 h2 => absurd h1 h2⟩, fun p j h => by cases h⟩
  | cons a objs ih =>
    intro k r hk hm hf h
    cases a with
    | none =>
      obtain ⟨h1, h2⟩ := ih k r hk hm hf (by simpa only [scanVars] using h)
      exact ⟨h1, fun p j hp hj => h2 p j (by simpa using hp) hj⟩
    | some p =>
      simp only [scanVars] at h
      split at h
      · next hn =>
        obtain ⟨h1, h2⟩ := ih k r hk hm hf h
        refine ⟨h1, fun p' j hp hj => ?_⟩
        rcases List.mem_cons.1 hp with e1 | hp
        · cases e1
          rw [hk, (he.2 p j).2 hj] at hn
          cases hn
        · exact h2 p' j hp hj
      · next j hj =>
        rw [hk] at hj
        have hji := (he.2 p j).1 hj
        split at h
        · next hc =>
          obtain ⟨h1, h2⟩ := ih k r hk hm hf h
          refine ⟨h1, fun p' j' hp hj' => ?_⟩
          rcases List.mem_cons.1 hp with e1 | hp
          · cases e1
            have := own_inj hd hj' hji
            subst this
            rcases hc with hc | hc
            · exact Or.inl hc.symm
            · exact Or.inr (h1.2.1 _ hc)
          · exact h2 p' j' hp hj'
        · next hc =>
          rw [not_or] at hc
          obtain ⟨r1, h1, h⟩ := bind_ok_inv h
          split at h
          · simp at h
          · next ht =>
            obtain ⟨b, r1⟩ := r1
            have hb : b = false := by simpa using ht
            subst hb
            have hjlt : j < owns.length := (List.getElem?_eq_some_iff.1 hji).1
            have hm1 : Marks owns (j :: k.path) :=
              ⟨List.nodup_cons.2 ⟨hc.2, hm.1⟩, fun x hx => (List.mem_cons.1 hx).elim (fun e => e ▸ hjlt) (hm.2 x)⟩
            obtain ⟨g, gd⟩ := H p j ⟨k.endo, j :: k.path⟩ r1 hk hm1 (by simp only [List.length_cons]; omega) hji h1
            obtain ⟨g1, g2, g3, g4⟩ := g
            have hk1 : r1.endo = e := (findPath_spec he hd _ _ ⟨k.endo, j :: k.path⟩ _ hk h1).1 rfl |>.1
            simp only [List.length_cons] at g3
            obtain ⟨⟨d1, d2, d3, d4⟩, d5⟩ := ih r1 r hk1 g1 (by omega) h
            refine ⟨⟨d1, fun x hx => d2 x (g2 x (List.mem_cons_of_mem _ hx)), by omega, ?_⟩, ?_⟩
            · intro x hx hx2
              by_cases hx1 : x ∈ r1.path
              · by_cases hxj : x = j
                · subst hxj; exact gd.mono d2
                · refine (g4 x hx1 ?_).mono d2
                  rintro hh
                  rcases List.mem_cons.1 hh with e1 | e1
                  · exact hxj e1
                  · exact hx2 e1
              · exact d4 x hx hx1
            · intro p' j' hp hj'
              rcases List.mem_cons.1 hp with e1 | hp
              · cases e1
                have := own_inj hd hj' hji
                subst this
                exact Or.inr (d2 _ (g2 _ (List.mem_cons_self ..)))
              · exact d5 p' j' hp hj'

theorem findPath_fail (he : e.Fresh owns) (hd : owns.Nodup) : ∀ fuel p i k r, k.endo = e → Marks owns k.path →
    owns.length + 1 ≤ fuel + k.path.length → owns[i]? = some p → findPath owns objss exo fuel p k = .ok (false, r) →
    FailSpec owns objss exo k r ∧ Done owns objss exo r.path i := by
  intro fuel
  induction fuel with
  | zero =>
    intro p i k r hk hm hf
    have : k.path.length ≤ owns.length := by
      have := (List.subperm_of_subset hm.1 (fun j hj => List.mem_range.2 (hm.2 j hj))).length_le
      simpa using this
    omega
  | succ fuel ih =>
    intro p i k r hk hm hf hi h
    simp only [findPath] at h
    obtain ⟨i', h1, h⟩ := bind_ok_inv h
    have hi' := own_inj hd hi (eqNamed_ok h1)
    subst hi'
    split at h
    · cases h
    · next poseq hp =>
      have : poseq = i := by rw [hk] at hp; exact own_inj hd ((he.2 p poseq).1 hp) hi
      subst this
      split at h
      · simp at h
      · next hx =>
        obtain ⟨g1, g2⟩ := scanVars_fail he hd ih poseq _ k r hk hm (by omega) h
        exact ⟨g1, hx, g2⟩

end Iode.Sim
