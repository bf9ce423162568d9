import Verif.Props.C25

/-!
# Values read by a formula, and the tokens of concatenated texts
-/
namespace Iode.Lec

variable {F : Type}

mutual
/-- The values a formula reads at `t`: its variables at the periods they refer to, and its coefficients
(outside of time functions). -/
def reads (A : Arith F) (E : Env F) : Expr → Int → List F
  | .var x l none, t => [E.at A x (t + l)]
  | .var x l (some p), _ => [E.at A x (E.posOf p + l)]
  | .coef x, _ => [E.coef x]
  | .par e, t => reads A E e t
  | .bin _ a b, t => reads A E a t ++ reads A E b t
  | .app _ args, t => readsL A E args t
  | _, _ => []
/-- The same for a list of formulas. -/
def readsL (A : Arith F) (E : Env F) : List Expr → Int → List F
  | [], _ => []
  | e :: es, t => reads A E e t ++ readsL A E es t
end

theorem readsL_mem {A : Arith F} {E : Env F} {t : Int} {w : F} : ∀ {es : List Expr},
    w ∈ readsL A E es t ↔ ∃ e ∈ es, w ∈ reads A E e t
  | [] => by simp [readsL]
  | e :: es => by simp [readsL, readsL_mem (es := es)]

theorem allSome_of {α : Type} {f : α → Option F} : ∀ {as : List α}, (∀ a ∈ as, ∃ v, f a = some v) →
    ∃ vs, allSome (as.map f) = some vs ∧ ∀ a ∈ as, ∀ v, f a = some v → v ∈ vs
  | [], _ => ⟨[], rfl, by simp⟩
  | a :: as, h => by
    obtain ⟨v, hv⟩ := h a (by simp)
    obtain ⟨vs, h1, h2⟩ := allSome_of (as := as) (f := f) (fun b hb => h b (by simp [hb]))
    refine ⟨v :: vs, by simp [allSome, hv, h1], ?_⟩
    intro b hb w hw
    rcases List.mem_cons.1 hb with rfl | hb
    · rw [hv] at hw; cases hw; simp
    · exact List.mem_cons_of_mem _ (h2 b hb w hw)

theorem allSome_mem {α : Type} {f : α → Option F} : ∀ {as : List α} {vs : List F}, allSome (as.map f) = some vs →
    ∀ v ∈ vs, ∃ a ∈ as, f a = some v
  | [], vs, h, v, hv => by simp [allSome] at h; subst h; cases hv
  | a :: as, vs, h, v, hv => by
    rw [List.map_cons] at h
    obtain ⟨w, vs', h1, h2, rfl⟩ := allSome_cons h
    rcases List.mem_cons.1 hv with rfl | hv
    · exact ⟨a, by simp, h1⟩
    · obtain ⟨b, hb, hb2⟩ := allSome_mem h2 v hv
      exact ⟨b, by simp [hb], hb2⟩

theorem allSome_get {α : Type} {f : α → Option F} {a : α} : ∀ {as : List α} {vs : List F},
    allSome (as.map f) = some vs → a ∈ as → ∃ v, f a = some v ∧ v ∈ vs
  | [], vs, _, ha => by cases ha
  | b :: as, vs, h, ha => by
    rw [List.map_cons] at h
    obtain ⟨w, vs', h1, h2, rfl⟩ := allSome_cons h
    rcases List.mem_cons.1 ha with rfl | ha
    · exact ⟨w, h1, by simp⟩
    · obtain ⟨v, hv, hv2⟩ := allSome_get h2 ha
      exact ⟨v, hv, by simp [hv2]⟩

/-- Formulas of operators and ordinary functions always have a value. -/
theorem Basic.defined {A : Arith F} (E : Env F) (hc : Casts A) {e : Expr} (hb : Basic e) (hw : WF e) (t : Int) :
    ∃ v, eval A E e t = some v := by
  induction hb with
  | cst k => cases k <;> exact ⟨_, by rw [eval]⟩
  | val k => exact ⟨_, by rw [eval]⟩
  | var x l p => cases p <;> exact ⟨_, by rw [eval]⟩
  | coef x => exact ⟨_, by rw [eval]⟩
  | par _ ih =>
    cases hw with
    | par hw => rw [eval]; exact ih hw
  | bin o _ _ iha ihb =>
    cases hw with
    | bin _ h1 h2 =>
      obtain ⟨a, ha⟩ := iha h1
      obtain ⟨b, hb⟩ := ihb h2
      exact ⟨_, by rw [eval, ha, hb]⟩
  | @fn f args hf _ ih =>
    cases hw with
    | app _ h1 h2 h3 =>
      obtain ⟨vs, hvs, _⟩ := allSome_of (f := fun e => eval A E e t) (fun a ha => ih a ha (h3 a ha))
      have hlen : vs.length = args.length := by simpa using allSome_length hvs
      rw [eval, evalFs_eq, List.map_map]
      rw [show ((fun x : Int → Option F => x t) ∘ eval A E) = (fun e => eval A E e t) from rfl, hvs]
      simp only [Option.bind_some]
      unfold fnVal
      rw [if_neg (by rintro rfl; cases hf), hf]
      split
      · obtain ⟨w, hw⟩ := fnRev_defined hc f vs.reverse (by simpa [hlen] using h2) (by rintro rfl; cases hf)
        exact ⟨w, by rw [hw]⟩
      · exact ⟨_, rfl⟩

/-- Grouping the brackets of a text followed by another one. -/
theorem group_append : ∀ (rts us : List RTok), RTok.eoe ∉ rts → Tok.bad ∉ group rts →
    group (rts ++ us) = group rts ++ group us := by
  intro rts us
  fun_induction group rts with
  | case1 => intro _ _; simp
  | case5 => intro _ h; simp at h
  | case6 => intro _ h; simp at h
  | case7 => intro _ h; simp at h
  | case8 => intro h; simp at h
  | _ =>
    rename_i ih
    intro h1 h2
    simp only [List.mem_cons, not_or] at h1 h2
    simp only [List.cons_append, group]
    first
      | rw [ih h1.2 h2.2]
      | rw [ih h1.2.2.2 h2.2]
      | rw [ih h1.2.2.2.2 h2.2]

end Iode.Lec
