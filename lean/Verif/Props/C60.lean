import Verif.Spec.TblEdit
import Verif.Props.C30
import Verif.Lemmas.Printf

/-!
# C60: editing a cell of a computed table
-/
namespace Iode.TblEdit

open Iode.Lec Iode.GSample

variable {A : Arith (Option ℝ)}

/-! ## The value -/

/-- The value as it is read back. -/
noncomputable def read8 (v : Rat) : ℝ := (if v < 0 then -1 else 1) * ((Printf.roundEven (|v| * 10 ^ 8) : ℝ) / 10 ^ 8)

theorem read8_rounded (v : Rat) : Rounded v (read8 v) := by
  have hp : 0 ≤ |v| * 10 ^ 8 := mul_nonneg (abs_nonneg v) (by norm_num)
  have h := Printf.roundEven_half hp
  unfold read8
  generalize Printf.roundEven (|v| * 10 ^ 8) = n at *
  have h' : |(|(v : ℝ)| * 10 ^ 8) - (n : ℝ)| ≤ 1 / 2 := by
    have h2 := (Rat.cast_le (K := ℝ)).mpr h
    push_cast at h2
    exact h2
  by_cases hq : v < 0
  · rw [if_pos hq]
    have hq' : (v : ℝ) < 0 := by exact_mod_cast hq
    rw [abs_of_neg hq'] at h'
    refine ⟨⟨-(n : Int), by push_cast; ring⟩, ?_⟩
    rw [abs_le] at h' ⊢
    constructor <;> (norm_num at h' ⊢; linarith)
  · rw [if_neg hq]
    have hq' : 0 ≤ (v : ℝ) := by exact_mod_cast not_lt.mp hq
    rw [abs_of_nonneg hq'] at h'
    refine ⟨⟨(n : Int), by push_cast; ring⟩, ?_⟩
    rw [abs_le] at h' ⊢
    constructor <;> (norm_num at h' ⊢; linarith)

/-- The expression of the value. -/
def valueExpr (v : Rat) : Expr :=
  let k : Expr := .cst (.real (Printf.roundEven (|v| * 10 ^ 8)) (10 ^ 8))
  if v < 0 then .app (.fn .uminus) [k] else k

theorem value_reads (v : Rat) : G false (.lev 8) (group (valueToks v)) [valueExpr v] := by
  unfold valueToks valueExpr
  by_cases h : v < 0
  · simp only [if_pos h, List.cons_append, List.nil_append, group]
    exact G.minus ((G.cst _).down (by omega))
  · simp only [if_neg h, List.nil_append, group]
    exact (G.cst _).down (by omega)

theorem value_calc (v : Rat) : Calc (valueExpr v) := by
  unfold valueExpr
  by_cases h : v < 0
  · simp only [if_pos h]
    exact .fn rfl (.cst _)
  · simp only [if_neg h]
    exact .cst _

theorem value_back (v : Rat) (x : Name) : Back 1 x (valueExpr v) := by
  refine .free ?_
  unfold valueExpr
  by_cases h : v < 0 <;> simp [h, varNames, varNamesL]

theorem value_eval (hA : RealMath A) (hc : ExactCst A) (E : Env (Option ℝ)) (v : Rat) (t : Int) :
    eval A E (valueExpr v) t = some (some (read8 v)) := by
  unfold valueExpr read8
  by_cases h : v < 0
  · simp only [if_pos h]
    have e : eval A E (.cst (.real (Printf.roundEven (|v| * 10 ^ 8)) (10 ^ 8))) t =
        some (some ((Printf.roundEven (|v| * 10 ^ 8) : ℝ) / 10 ^ 8)) := by
      have := hc (Printf.roundEven (|v| * 10 ^ 8) : Nat) (10 ^ 8)
      simp only [eval]
      rw [this]
      norm_num
    rw [fn_num hA rfl e]
    simp [Arith.un, hA.neg]
  · simp only [if_neg h, eval, one_mul]
    rw [hc (Printf.roundEven (|v| * 10 ^ 8) : Nat) (10 ^ 8)]
    norm_num

theorem group_right (v : Rat) (us : List RTok) : group (valueToks v ++ .op .times :: us) = group (valueToks v) ++ .op .times :: group us := by
  unfold valueToks
  by_cases h : v < 0
  · simp only [if_pos h, List.cons_append, List.nil_append, group]
  · simp only [if_neg h, List.cons_append, List.nil_append, group]

/-! ## Products -/

/-- A number in front of a product or a quotient. -/
theorem product (hA : RealMath A) {x : Name} {vt : List Lec.Tok} {ve : Expr} (hv : G false (.lev 8) vt [ve]) (hvc : Calc ve) (hvb : Back 1 x ve) {r : ℝ}
    (hr : ∀ E t, eval A E ve t = some (some r)) {k : Kind} {us : List Lec.Tok} {es : List Expr} (h : G false k us es) :
    ∀ d, k = .lev 6 → es = [d] → Calc d → Back 1 x d →
      ∃ e, G false (.lev 6) (vt ++ .op .times :: us) [e] ∧ Calc e ∧ Back 1 x e ∧
        ∀ E t y, eval A E d t = some (some y) → eval A E e t = some (some (r * y)) := by
  induction h with
  | up h _ =>
    rename_i n ts es
    rintro d hk rfl hd hb
    cases hk
    refine ⟨.bin .times ve d, G.bin .times (hv.down (by decide)) h, .bin _ hvc hd, .bin _ hvb hb, fun E t y h2 => ?_⟩
    rw [bin_num hA (hr E t) h2]
    simp only [Arith.bin, hA.mul]
  | bin o h1 h2 ih _ =>
    rename_i ts us a b ih2
    rintro d hk he hd hb
    cases he
    have ho : o.prior = 6 := by simpa using hk
    cases hd with
    | bin _ ha hb' =>
      have hb1 : Back 1 x a ∧ Back 1 x b := by
        cases hb with
        | free hf =>
          simp only [varNames, List.mem_append, not_or] at hf
          exact ⟨.free hf.1, .free hf.2⟩
        | bin _ p q => exact ⟨p, q⟩
      obtain ⟨e, e1, e2, e3, e4⟩ := ih a (by rw [ho]) rfl ha hb1.1
      rw [ho] at h2
      refine ⟨.bin o e b, ?_, .bin _ e2 hb', .bin _ e3 hb1.2, fun E t y q2 => ?_⟩
      · have := G.bin (ext := false) o (ts := vt ++ .op .times :: ts) (us := us) (a := e) (b := b) (by rw [ho]; exact e1) (by rw [ho]; exact h2)
        rw [ho] at this
        simpa using this
      · obtain ⟨s1, s2, r1, r2, r3⟩ := num_bin hA q2
        have hw := e4 E t s1 r1
        rw [bin_num hA hw r2]
        cases o <;> simp only [Op.prior] at ho <;> try omega
        · simp only [Arith.bin] at r3 ⊢
          obtain ⟨hne, rfl⟩ := divide_some hA r3
          rw [divide_ne hA hne]
          congr 2
          ring
        · simp only [Arith.bin, hA.mul, Option.some.injEq] at r3 ⊢
          rw [← r3]
          ring
  | _ =>
    intro d hk
    simp at hk

/-- A divisor that the edition takes as a whole: none, or a product or quotient (with sums between parentheses) that does not read the present
    value of the variable. -/
def GoodDivisor (x : Name) (div : List RTok) : Prop :=
  div = [] ∨ ∃ d, G false (.lev 6) (group div) [d] ∧ Calc d ∧ Back 1 x d

/-- The right hand side. -/
theorem right_ok (hA : RealMath A) (hc : ExactCst A) {x : Name} {c : Cell} (hd : GoodDivisor x c.div) (v : Rat) :
    ∃ e, Reads (group (rightSide c v)) e ∧ Calc e ∧ Back 1 x e ∧ ∀ E t,
      (c.div = [] → eval A E e t = some (some (read8 v))) ∧
      ∀ y, c.div ≠ [] → evalText A E [] c.div t = .ok (some y) → eval A E e t = some (some (read8 v * y)) := by
  unfold rightSide
  rw [group_right]
  rcases hd with hd | ⟨d, h1, h2, h3⟩
  · rw [if_pos hd]
    have h1 : G false (.lev 6) (group [RTok.cst (.long 1)]) [.cst (.long 1)] := (G.cst _).down (by omega)
    obtain ⟨e, e1, e2, e3, e4⟩ := product hA (value_reads v) (value_calc v) (value_back v x) (fun E t => value_eval hA hc E v t) h1 _ rfl rfl
      (.cst _) (.free (by simp [varNames]))
    refine ⟨e, e1.down (by omega), e2, e3, fun E t => ⟨fun _ => ?_, fun y hne => absurd hd hne⟩⟩
    rw [e4 E t 1 (by simp [eval, hA.ofInt]), mul_one]
  · by_cases hdn : c.div = []
    · rw [hdn] at h1
      exact absurd rfl h1.ne_nil
    · rw [if_neg hdn]
      obtain ⟨e, e1, e2, e3, e4⟩ := product hA (value_reads v) (value_calc v) (value_back v x) (fun E t => value_eval hA hc E v t) h1 d rfl rfl h2 h3
      refine ⟨e, e1.down (by omega), e2, e3, fun E t => ⟨fun h => absurd h hdn, fun y _ hy => ?_⟩⟩
      exact e4 E t y ((evalText_of hA (h1.down (by omega)) h2).mp hy)

/-! ## The edition -/

theorem kvSet_in {F : Type} (E : Env F) (x : Name) {t : Int} (ht : 0 ≤ t ∧ t < E.nb) (v : F) : kvSet E x t v = E.set x t v := by
  unfold kvSet
  rw [if_neg (by omega)]
  rfl

/-- An edition that succeeds without Newton-Raphson. -/
theorem propagate_solved {F : Type} {A : Arith F} {E : Env F} {rest : List RTok} {solve : List Atom → Res (Option (Env F))} {c : Cell} {x : Name} {v : Rat}
    {t : Int} {z : F} (h : solveText A E c.lec (rightSide c v) x t = .ok (false, z)) :
    propagate A E rest solve c x v t = if A.isNum z then .ok (some (kvSet E x t z)) else .ok none := by
  unfold solveText at h
  unfold propagate
  cases hi : invert (group c.lec) (group (rightSide c v)) x with
  | ub => rw [hi] at h; cases h
  | err => rw [hi] at h; cases h
  | ok p =>
    obtain ⟨d, as⟩ := p
    rw [hi] at h
    simp only [Res.bind] at h
    cases hb : build as with
    | ub => rw [hb] at h; cases h
    | err => rw [hb] at h; cases h
    | ok code =>
      rw [hb] at h
      simp only at h
      cases he : execSub A E code t with
      | ub => rw [he] at h; cases h
      | err => rw [he] at h; cases h
      | ok z' =>
        rw [he] at h
        simp only [Res.ok.injEq, Prod.mk.injEq] at h
        obtain ⟨rfl, rfl⟩ := h
        simp only [hb, he, Res.bind]

/-- What leads to `propagate`. -/
theorem setValue_some {F : Type} {A : Arith F} {E E' : Env F} {rest : List RTok} {solve : List Atom → Res (Option (Env F))} {start : Period}
    {c : Cell} {col : Col} {v : Rat} (h : setValue A E rest solve start c col v = .ok (some E')) :
    editable c col = true ∧ ∃ x t, firstVar c.lec = some x ∧ col.per.difference start = .ok t ∧
      propagate A E rest solve c x v t = .ok (some E') := by
  unfold setValue at h
  split at h
  · cases h
  · rename_i he
    cases hx : firstVar c.lec with
    | none => rw [hx] at h; cases h
    | some x =>
      rw [hx] at h
      cases ht : col.per.difference start with
      | err => rw [ht] at h; cases h
      | ub => rw [ht] at h; cases h
      | ok t =>
        rw [ht] at h
        exact ⟨by simpa using he, x, t, rfl, rfl, h⟩

/-- `C60`: a cell whose formula contains its first variable once, within operations and functions that are undone for every value, and whose
    divisor is a product: after an accepted edit the cell shows the value, rounded to 8 decimals.  Partial: the divisor must not be a sum, and the
    formula has no call of several arguments behind the variable (see the counterexamples). -/
theorem C60_shows_partial (hA : RealMath A) (hc : ExactCst A) (E : Env (Option ℝ)) {rest : List RTok} {solve : List Atom → Res (Option (Env (Option ℝ)))}
    {start : Period} {c : Cell} {col : Col} {v : Rat} {E' : Env (Option ℝ)} {l : Expr} (hl : Reads (group c.lec) l) (hcl : Calc l) {x : Name}
    (hx : firstVar c.lec = some x) (hs : Solvable Fn.onto true x l) (hd : GoodDivisor x c.div) {t : Int} (hp : col.per.difference start = .ok t)
    (ht : 0 ≤ t ∧ t < E.nb) (h : setValue A E rest solve start c col v = .ok (some E')) {y : ℝ} (hy : Displays A E' c t y) : Rounded v y := by
  obtain ⟨-, x', t', h1, h2, h3⟩ := setValue_some h
  rw [hx] at h1
  obtain rfl : x = x' := by simpa using h1
  rw [hp] at h2
  obtain rfl : t = t' := by simpa using h2
  obtain ⟨e, e1, e2, e3, e4⟩ := right_ok (A := A) hA hc hd v
  have hone : OneSide Fn.onto true x l e := .inl ⟨hs, e3⟩
  obtain ⟨z, hz⟩ := C30_solved hA E hl e1 hcl e2 (.inl hone) t ht
  rw [propagate_solved hz, kvSet_in E x ht] at h3
  cases z with
  | none => rw [hA.isNum] at h3; simp at h3
  | some z =>
    rw [hA.isNum] at h3
    simp only [Option.isSome_some, if_true, Res.ok.injEq, Option.some.injEq] at h3
    subst h3
    obtain ⟨u, hu, hq⟩ := hy
    by_cases hdn : c.div = []
    · rw [if_pos hdn] at hq
      have := C30_solution_is_a_root_partial hA E hl e1 hcl e2 hone ht hz hu ((evalText_of hA e1 e2).mpr ((e4 _ t).1 hdn))
      rw [hq, this]
      exact read8_rounded v
    · rw [if_neg hdn] at hq
      obtain ⟨d, hd1, hd2, hd3⟩ := hq
      have := C30_solution_is_a_root_partial hA E hl e1 hcl e2 hone ht hz hu ((evalText_of hA e1 e2).mpr ((e4 _ t).2 d hdn hd1))
      rw [this] at hd3
      have hy : y = read8 v := mul_right_cancel₀ hd2 hd3
      rw [hy]
      exact read8_rounded v

/-! ## What changes -/

theorem run_bad {ts : List Lec.Tok} (h : Lec.Tok.bad ∈ ts) : ∀ st st', run st ts ≠ .ok st' := by
  induction ts with
  | nil => simp at h
  | cons k ts ih =>
    intro st st' hr
    simp only [run] at hr
    cases hk : step st k with
    | err o => rw [hk] at hr; cases hr
    | ub => rw [hk] at hr; cases hr
    | ok s1 =>
      rw [hk] at hr
      rcases List.mem_cons.mp h with rfl | h'
      · simp [step] at hk
      · exact ih h' s1 st' hr

theorem compile_bad {ts : List Lec.Tok} (h : Lec.Tok.bad ∈ ts) (ops : List Entry) (as : List Atom) : Lec.compile ops ts ≠ .ok as := by
  intro hc
  unfold Lec.compile at hc
  split at hc
  · cases hc
  · cases hr : run { ops := ops, out := [], beg := true, par := 0 } ts with
    | err o => rw [hr] at hc; cases hc
    | ub => rw [hr] at hc; cases hc
    | ok s => exact run_bad h _ _ hr

/-- A second text is never compiled. -/
theorem compile_second {lec rest : List RTok} (he : RTok.eoe ∉ lec) (hb : Lec.Tok.bad ∉ group lec) (as : List Atom) :
    Lec.compile [] (group (lec ++ .bad :: rest)) ≠ .ok as := by
  rw [group_append lec _ he hb]
  exact compile_bad (by simp [group]) [] as

theorem invert_lhs {lhs rhs : List Lec.Tok} {x : Name} {p : Bool × List Atom} (h : invert lhs rhs x = .ok p) : Lec.Tok.bad ∉ lhs := by
  intro hb
  rw [invert, compileSide] at h
  cases hc : Lec.compile [] lhs with
  | ok as => exact compile_bad hb [] as hc
  | err o => rw [hc] at h; cases h
  | ub => rw [hc] at h; cases h

/-- `C60`: an accepted edit changes only the first variable of the formula, at the period of the column.  For a period outside the sample
    nothing changes. -/
theorem C60_changes {F : Type} (A : Arith F) (E : Env F) {rest : List RTok} {solve : List Atom → Res (Option (Env F))} {start : Period} {c : Cell} {col : Col}
    {v : Rat} {E' : Env F} (he : RTok.eoe ∉ c.lec) (h : setValue A E rest solve start c col v = .ok (some E')) :
    ∃ x t, firstVar c.lec = some x ∧ col.per.difference start = .ok t ∧ E'.nb = E.nb ∧ E'.coef = E.coef ∧
      (∀ y i, E'.var y i ≠ E.var y i → y = x ∧ i = t) ∧
      (if 0 ≤ t ∧ t < E.nb then A.isNum (E'.var x t) = true else E' = E) := by
  obtain ⟨-, x, t, h1, h2, h3⟩ := setValue_some h
  refine ⟨x, t, h1, h2, ?_⟩
  have key : ∃ z, A.isNum z = true ∧ E' = kvSet E x t z := by
    unfold propagate at h3
    cases hi : invert (group c.lec) (group (rightSide c v)) x with
    | ub => rw [hi] at h3; cases h3
    | err => rw [hi] at h3; cases h3
    | ok p =>
      obtain ⟨d, as⟩ := p
      rw [hi] at h3
      cases d with
      | true =>
        simp only at h3
        cases hc : Lec.compile [] (group (c.lec ++ .bad :: rest)) with
        | ok as => exact absurd hc (compile_second he (invert_lhs hi) as)
        | err o => rw [hc] at h3; cases h3
        | ub => rw [hc] at h3; cases h3
      | false =>
        simp only at h3
        cases hb : build as with
        | ub => rw [hb] at h3; cases h3
        | err => rw [hb] at h3; cases h3
        | ok code =>
          rw [hb] at h3
          simp only at h3
          cases hx : execSub A E code t with
          | ub => rw [hx] at h3; cases h3
          | err => rw [hx] at h3; cases h3
          | ok z =>
            rw [hx] at h3
            simp only [Res.bind] at h3
            by_cases hz : A.isNum z = true
            · rw [if_pos hz] at h3
              exact ⟨z, hz, by simpa using h3.symm⟩
            · rw [if_neg hz] at h3
              cases h3
  obtain ⟨z, hz, rfl⟩ := key
  unfold kvSet
  by_cases ht : t < 0 ∨ E.nb ≤ t
  · rw [if_pos ht]
    refine ⟨rfl, rfl, fun y i hne => absurd rfl hne, ?_⟩
    rw [if_neg (by omega)]
  · rw [if_neg ht]
    refine ⟨rfl, rfl, fun y i hne => ?_, ?_⟩
    · by_contra hc
      exact hne (if_neg hc)
    · rw [if_pos (by omega)]
      simpa using hz

/-- `C60`: a variable found twice (in the formula, or in the formula and in the divisor) is always refused: the Newton-Raphson method is never
    reached, because the text given to it contains the sign `:=`. -/
theorem C60_twice_refused {F : Type} (A : Arith F) (E : Env F) (rest : List RTok) (solve : List Atom → Res (Option (Env F))) (start : Period) {c : Cell}
    (col : Col) {v : Rat} {l r : Expr} (he : RTok.eoe ∉ c.lec) (hl : Reads (group c.lec) l) (hr : Reads (group (rightSide c v)) r) {x : Name}
    (hx : firstVar c.lec = some x) (h2 : 2 ≤ nowCount x l + nowCount x r) (hp : col.per.difference start ≠ .ub) :
    setValue A E rest solve start c col v = .ok none := by
  unfold setValue
  split
  · rfl
  · rw [hx]
    cases ht : col.per.difference start with
    | err => rfl
    | ub => exact absurd ht hp
    | ok t =>
      simp only
      have h' : 2 ≤ countEndo x (atomsOf l) + countEndo x (atomsOf r) := by
        rw [← occ_now, ← occ_now] at h2; exact h2
      have hi : ∃ as, invert (group c.lec) (group (rightSide c v)) x = .ok (true, as) := by
        rw [invert, compileSide, compileSide, G.compile hl, G.compile hr]
        simp only [Res.bind]
        rw [if_neg (by omega), if_pos h']
        exact ⟨_, rfl⟩
      obtain ⟨as, hi⟩ := hi
      have hb := invert_lhs hi
      have hcm : ∃ o, Lec.compile [] (group (c.lec ++ .bad :: rest)) = .err o := by
        have hok := G.compile hl
        rw [group_append c.lec _ he hb]
        simp only [group]
        unfold Lec.compile at hok ⊢
        rw [if_neg (by simp)]
        split at hok
        · cases hok
        · rw [run_append]
          cases hrun : run { ops := [], out := [], beg := true, par := 0 } (group c.lec) with
          | err o => rw [hrun] at hok; cases hok
          | ub => rw [hrun] at hok; cases hok
          | ok s => exact ⟨s.ops, rfl⟩
      obtain ⟨o, hcm⟩ := hcm
      unfold propagate
      rw [hi]
      simp only [hcm]

/-- `C60`: a first variable that is only lagged in the formula is refused, although the cell is said to be editable. -/
theorem C60_lagged_refused {F : Type} (A : Arith F) (E : Env F) (rest : List RTok) (solve : List Atom → Res (Option (Env F))) (start : Period) {c : Cell}
    (col : Col) {v : Rat} {l r : Expr} (hl : Reads (group c.lec) l) (hr : Reads (group (rightSide c v)) r) {x : Name} (hx : firstVar c.lec = some x)
    (h0 : nowCount x l + nowCount x r = 0) (hp : col.per.difference start ≠ .ub) : setValue A E rest solve start c col v = .ok none := by
  unfold setValue
  split
  · rfl
  · rw [hx]
    cases ht : col.per.difference start with
    | err => rfl
    | ub => exact absurd ht hp
    | ok t =>
      simp only
      have h' : countEndo x (atomsOf l) + countEndo x (atomsOf r) = 0 := by
        rw [← occ_now, ← occ_now] at h0; exact h0
      have hi : invert (group c.lec) (group (rightSide c v)) x = .err := by
        rw [invert, compileSide, compileSide, G.compile hl, G.compile hr]
        simp only [Res.bind]
        rw [if_pos h']
      unfold propagate
      rw [hi]

/-- `C60`: a cell with one variable and no divisor takes every value: the variable becomes the value rounded to 8 decimals. -/
theorem C60_plain (hA : RealMath A) (hc : ExactCst A) (E : Env (Option ℝ)) (rest : List RTok) (solve : List Atom → Res (Option (Env (Option ℝ))))
    (start : Period) (x : Name) {col : Col} (v : Rat) (hopy : col.opy = none) (hopf : col.opf = none) (hfile : col.file = 1) {t : Int}
    (hp : col.per.difference start = .ok t) (ht : 0 ≤ t ∧ t < E.nb) :
    ∃ r, Rounded v r ∧ setValue A E rest solve start ⟨[.var x], [], false⟩ col v = .ok (some (E.set x t (some r))) := by
  refine ⟨read8 v, read8_rounded v, ?_⟩
  have hl : Reads (group [RTok.var x]) (.var x 0 none) := (G.var (ext := false) x).down (by omega)
  obtain ⟨e, e1, e2, e3, e4⟩ := right_ok (A := A) (x := x) (c := ⟨[.var x], [], false⟩) hA hc (.inl rfl) v
  have hi := invert_left hl e1 (Solvable.var (fs := Fn.onto) (pow := true) (x := x)).occ e3.occ (.var e)
  have hz := solveText_of (E := E) (t := t) hA e2 hi ((e4 E t).1 rfl)
  have hed : editable ⟨[.var x], [], false⟩ col = true := by simp [editable, hopy, hopf, hfile, firstVar]
  unfold setValue
  simp only [hed, firstVar, hp]
  rw [propagate_solved hz, kvSet_in E x ht, hA.isNum]
  rfl

/-! ## Counterexamples -/

section Counter

/-- The column `2000`. -/
def exCol : Col := ⟨⟨2000, 1, 'Y'⟩, none, 1, none⟩

/-- All variables are 2 in even and 3 in odd positions, the sample begins in 2000. -/
def exEnv : Env (Option ℚ) := { ratEnv with var := fun _ i => some (if i % 2 = 0 then 2 else 3) }

/-- The value of a formula at the first position after an edit of the column `2000`. -/
def after (c : Cell) (v : Rat) (f : List RTok) : Res (Option ℚ) :=
  (setValue ratArith exEnv [] (fun _ => .err) ⟨2000, 1, 'Y'⟩ c exCol v).bind fun o =>
    match o with
    | some E' => evalText ratArith E' [] f 0
    | none => .err

/-- A cell that shows `X / (A + 1)` with `A = 2`: asked for 2, it shows 5/3, because the divisor is put behind the value without parentheses;
    with the parentheses in the table it shows 2. -/
theorem C60_sum_divisor_counterexample :
    after ⟨[.var (nm 'X')], [.var (nm 'A'), .op .plus, .cst (.long 1)], false⟩ 2 [.var (nm 'X')] = .ok (some 5) ∧
    after ⟨[.var (nm 'X')], [.var (nm 'A'), .op .plus, .cst (.long 1)], false⟩ 2 [.var (nm 'A'), .op .plus, .cst (.long 1)] = .ok (some 3) ∧
    after ⟨[.var (nm 'X')], [.openp, .var (nm 'A'), .op .plus, .cst (.long 1), .closep], false⟩ 2 [.var (nm 'X')] = .ok (some 6) := by
  decide +kernel

/-- A value smaller than half a unit of the eighth decimal becomes 0. -/
theorem C60_small_counterexample : after ⟨[.var (nm 'X')], [], false⟩ (4 / 10 ^ 9) [.var (nm 'X')] = .ok (some 0) := by decide +kernel

/-- A cell with `X[-1]` and a cell with `X + X` are said to be editable and are always refused. -/
theorem C60_editable_counterexample (v : Rat) (hv : 0 ≤ v) (E : Env (Option ℚ)) (col : Col) (h1 : col.opy = none) (h2 : col.opf = none)
    (h3 : col.file = 1) (h4 : col.per.difference ⟨2000, 1, 'Y'⟩ ≠ .ub) :
    let c1 : Cell := ⟨[.var (nm 'X'), .openb, .op .minus, .cst (.long 1), .closeb], [], false⟩
    let c2 : Cell := ⟨[.var (nm 'X'), .op .plus, .var (nm 'X')], [], false⟩
    (editable c1 col = true ∧ setValue ratArith E [] (fun _ => .err) ⟨2000, 1, 'Y'⟩ c1 col v = .ok none) ∧
    editable c2 col = true ∧ setValue ratArith E [] (fun _ => .err) ⟨2000, 1, 'Y'⟩ c2 col v = .ok none := by
  intro c1 c2
  have hr : ∀ c : Cell, c.div = [] → Reads (group (rightSide c v)) (.bin .times (valueExpr v) (.cst (.long 1))) := by
    intro c hc
    unfold rightSide
    rw [group_right, if_pos hc]
    exact (G.bin (ext := false) .times ((value_reads v).down (by decide)) ((G.cst _).down (by decide))).down (by omega)
  have h0 : nowCount (nm 'X') (.bin .times (valueExpr v) (.cst (.long 1))) = 0 := by
    unfold valueExpr
    simp [not_lt.mpr hv, nowCount]
  have hX := G.var (ext := false) (nm 'X')
  refine ⟨⟨by simp [c1, editable, h1, h2, h3, firstVar], ?_⟩, by simp [c2, editable, h1, h2, h3, firstVar], ?_⟩
  · exact C60_lagged_refused ratArith E [] _ _ col (c := c1) (l := .var (nm 'X') (-1) none) ((G.lag (-1) hX).down (by omega)) (hr c1 rfl) rfl
      (by rw [h0]; simp [nowCount]) h4
  · exact C60_twice_refused ratArith E [] _ _ col (c := c2) (l := .bin .plus (.var (nm 'X') 0 none) (.var (nm 'X') 0 none)) (by simp [c2])
      ((G.bin (ext := false) .plus (hX.down (by decide)) (hX.down (by decide))).down (by omega)) (hr c2 rfl) rfl (by simp [nowCount]) h4

/-- A refused edit of a variable found twice leaves operators on the stack of the compiler, and the formula compiled next is wrong. -/
theorem C60_stack_counterexample :
    Lec.compile [] (group ([.var (nm 'X'), .op .plus, .var (nm 'X')] ++ [.bad])) = .err [.op .plus] ∧
    Lec.compile [.op .plus] (group [.var (nm 'A')]) ≠ Lec.compile [] (group [.var (nm 'A')]) := by decide +kernel

end Counter

/-! ## The hypotheses are met -/

/-- The cell `X / 2 - A` with the divisor `B * (B + 1)`. -/
def exCell : Cell := ⟨[.var (nm 'X'), .op .divide, .cst (.long 2), .op .minus, .var (nm 'A')],
  [.var (nm 'B'), .op .times, .openp, .var (nm 'B'), .op .plus, .cst (.long 1), .closep], false⟩

example : let l : Expr := .bin .minus (.bin .divide (.var (nm 'X') 0 none) (.cst (.long 2))) (.var (nm 'A') 0 none)
    firstVar exCell.lec = some (nm 'X') ∧ Reads (group exCell.lec) l ∧ Calc l ∧ Solvable Fn.onto true (nm 'X') l := by
  refine ⟨rfl, ?_, .bin _ (.bin _ (.var _ _ _) (.cst _)) (.var _ _ _), ?_⟩
  · have h1 := G.bin (ext := false) .divide ((G.var (nm 'X')).down (by decide)) ((G.cst (.long 2)).down (by decide))
    exact (G.bin (ext := false) .minus (h1.down (by decide)) ((G.var (nm 'A')).down (by decide))).down (by omega)
  · exact .left (by simp) (.left (by simp) .var (.free (by decide)) (.cst _)) (.free (by decide)) (.var _ _ _)

example : GoodDivisor (nm 'X') exCell.div := by
  refine .inr ⟨.bin .times (.var (nm 'B') 0 none) (.par (.bin .plus (.var (nm 'B') 0 none) (.cst (.long 1)))), ?_, ?_, .free (by decide)⟩
  · have hB := G.var (ext := false) (nm 'B')
    have h1 := G.bin (ext := false) .plus (hB.down (by decide)) ((G.cst (.long 1)).down (by decide))
    exact G.bin (ext := false) .times (hB.down (by decide)) ((G.par (h1.down (by omega))).down (by decide))
  · exact .bin _ (.var _ _ _) (.par (.bin _ (.var _ _ _) (.cst _)))

example : RealMath realArith ∧ ExactCst realArith := ⟨realArith_real, fun _ _ => rfl⟩

/-- `X / 2 - A` with the divisor `A * (A + 1)`, asked for 1/3: the edit is accepted, and the formula is 0.33333333 times the divisor. -/
example : after ⟨[.var (nm 'X'), .op .divide, .cst (.long 2), .op .minus, .var (nm 'A')],
      [.var (nm 'A'), .op .times, .openp, .var (nm 'A'), .op .plus, .cst (.long 1), .closep], false⟩ (1 / 3)
      [.var (nm 'X'), .op .divide, .cst (.long 2), .op .minus, .var (nm 'A')] = .ok (some (6 * (33333333 / 10 ^ 8))) := by decide +kernel

end Iode.TblEdit
