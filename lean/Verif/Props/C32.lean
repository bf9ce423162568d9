import Verif.Spec.Sim
import Verif.Lemmas.SimOrder

/-!
# C32: reordering a model neither loses nor duplicates equations
-/
namespace Iode.Sim

theorem allPreds_length (e : Endo) (objss : List (List (Option Nat))) : (allPreds e objss).length = objss.length := by
  simp [allPreds]

theorem allSuccs_length (e : Endo) (objss : List (List (Option Nat))) : (allSuccs e objss).length = objss.length := by
  simp [allSuccs]

/-- The equations of prolog and epilog as they are placed. -/
theorem decompose_both (e : Endo) (objss : List (List (Option Nat))) :
    let b := decompose e objss
    Grows (allPreds e objss) [] b.pre ∧ Grows (allSuccs e objss) b.pre (b.pre ++ b.post.reverse) ∧
      b.inter = (List.range objss.length).filter (· ∉ b.pre ++ b.post.reverse) := by
  have h1 := buildList_grows (allPreds e objss) []
  have h2 := buildList_grows (allSuccs e objss) (buildList (allPreds e objss) [])
  obtain ⟨r, hr⟩ := h2.prefix
  have h3 : buildList (allPreds e objss) [] ++
      (((buildList (allSuccs e objss) (buildList (allPreds e objss) [])).drop
        (buildList (allPreds e objss) []).length).reverse).reverse =
      buildList (allSuccs e objss) (buildList (allPreds e objss) []) := by
    rw [List.reverse_reverse, ← hr, List.drop_left]
  refine ⟨h1, ?_, ?_⟩
  · simp only [decompose]
    rw [h3]
    exact h2
  · have : (decompose e objss).inter =
        (List.range objss.length).filter (· ∉ buildList (allSuccs e objss) (buildList (allPreds e objss) [])) := rfl
    rw [this]
    apply List.filter_congr
    intro x _
    have : (decompose e objss).pre ++ (decompose e objss).post.reverse = _ := h3
    rw [this]

theorem decompose_perm (e : Endo) (objss : List (List (Option Nat))) :
    (decompose e objss).order.Perm (List.range objss.length) := by
  obtain ⟨h1, h2, h3⟩ := decompose_both e objss
  have hd1 := h1.nodup List.nodup_nil
  have hd2 := h2.nodup hd1
  have hb1 : ∀ i ∈ (decompose e objss).pre, i < (allSuccs e objss).length := by
    intro i hi
    rw [allSuccs_length, ← allPreds_length e]
    exact h1.bound (fun _ h => by cases h) i hi
  have hb2 := h2.bound hb1
  rw [allSuccs_length] at hb2
  generalize decompose e objss = b at *
  have hp : b.order.Perm (b.inter ++ (b.pre ++ b.post.reverse)) := by
    unfold Blocks.order
    have : (b.pre ++ b.inter ++ b.post).Perm (b.inter ++ b.pre ++ b.post.reverse) :=
      List.Perm.append List.perm_append_comm (List.reverse_perm _).symm
    rw [List.append_assoc b.inter] at this
    exact this
  refine hp.trans ?_
  refine (List.perm_ext_iff_of_nodup ?_ List.nodup_range).2 ?_
  · rw [List.nodup_append]
    refine ⟨?_, hd2, ?_⟩
    · rw [h3]; exact List.nodup_range.filter _
    · intro x hx y hy
      rw [h3, List.mem_filter] at hx
      rintro rfl
      have := hx.2
      simp only [decide_eq_true_eq] at this
      exact this hy
  · intro i
    rw [List.mem_append, h3, List.mem_filter, List.mem_range]
    constructor
    · rintro (h | h)
      · exact h.1
      · exact hb2 i h
    · intro h
      by_cases hi : i ∈ b.pre ++ b.post.reverse
      · exact Or.inr hi
      · exact Or.inl ⟨h, by simpa using hi⟩

theorem tri_perm (e : Endo) (objss : List (List (Option Nat))) (passes : Nat) :
    (permEnd objss.length (permPasses (allPreds e objss) (decompose e objss).inter passes) (decompose e objss).inter).Perm
      (decompose e objss).inter := by
  obtain ⟨_, _, h3⟩ := decompose_both e objss
  refine permEnd_perm (permPasses_numbering _ _ _) ?_ ?_
  · rw [h3]; exact List.nodup_range.filter _
  · intro i hi
    rw [h3, List.mem_filter, List.mem_range] at hi
    exact hi.1

/-- With or without triangulation and for every number of passes, the computed order always exists and has every equation
exactly once. -/
theorem C32_order_is_a_permutation (sort : SortBy) (hs : sort ≠ .none) (passes : Nat) (e : Endo)
    (objss : List (List (Option Nat))) (eqs : List (Option Nat)) :
    ∃ b, order sort passes e objss eqs = .ok b ∧ b.order.Perm (List.range objss.length) := by
  cases sort with
  | none => exact absurd rfl hs
  | connex => exact ⟨_, rfl, decompose_perm e objss⟩
  | both =>
    refine ⟨_, rfl, ?_⟩
    refine List.Perm.trans ?_ (decompose_perm e objss)
    exact ((List.Perm.refl _).append (tri_perm e objss passes)).append (List.Perm.refl _)

theorem filterMap_id_some (l : List Nat) : (l.map some).filterMap id = l := by
  induction l with
  | nil => rfl
  | cons a l ih => simp

/-- Without sorting the order is that of the model, or the order of the caller if this names every equation once.
Missing for the full statement: other lists of equations, see the counterexamples. -/
theorem C32_unsorted_partial (passes : Nat) (e : Endo) (objss : List (List (Option Nat))) (eqs : List (Option Nat))
    (h : eqs = [] ∨ ∃ l : List Nat, eqs = l.map some ∧ l.Perm (List.range objss.length)) :
    ∃ b, order .none passes e objss eqs = .ok b ∧ b.order.Perm (List.range objss.length) ∧
      (eqs ≠ [] → b.order.map some = eqs) := by
  rcases h with rfl | ⟨l, rfl, hl⟩
  · refine ⟨_, rfl, ?_, fun h => absurd rfl h⟩
    simp [Blocks.order]
  · by_cases hn : l.map some = []
    · refine ⟨⟨[], List.range objss.length, []⟩, by simp only [order, if_pos hn], ?_, fun h => absurd hn h⟩
      simp [Blocks.order]
    · have hlen : l.length = objss.length := by simpa using hl.length_eq
      refine ⟨⟨[], l, []⟩, ?_, by simpa [Blocks.order] using hl, fun _ => by simp [Blocks.order]⟩
      simp only [order, if_neg hn]
      have : namedOrder objss.length (l.map some) = .ok l := by
        unfold namedOrder
        rw [if_neg (by simp [hlen]), List.take_of_length_le (by simp [hlen]), if_pos (by simp), filterMap_id_some]
      rw [this]
      rfl

/-- The triangulation moves equations inside of the block only: the prolog and the epilog are those of the decomposition. -/
theorem C32_triangulation_stays_in_block (passes : Nat) (e : Endo) (objss : List (List (Option Nat)))
    (eqs : List (Option Nat)) (b c : Blocks) (hb : order .both passes e objss eqs = .ok b)
    (hc : order .connex passes e objss eqs = .ok c) : b.pre = c.pre ∧ b.post = c.post ∧ b.inter.Perm c.inter := by
  simp only [order, Res.ok.injEq] at hb hc
  subst hb hc
  exact ⟨rfl, rfl, tri_perm e objss passes⟩

/-- A model with a prolog, a block and an epilog: `x` is variable 5, the equations are `0: f(x)`, `1: f(2, 0)`, `2: f(3)`,
`3: f(1)` and `4: f(3, 2)`. -/
def exObjs : List (List (Option Nat)) := [[some 5], [some 2, some 0], [some 3], [some 1], [some 3, some 2]]

def exEndo : Endo := Endo.link 6 [0, 1, 2, 3, 4]

example : order .connex 5 exEndo exObjs [] = .ok ⟨[0], [1, 2, 3], [4]⟩ := by decide +kernel

example : order .both 5 exEndo exObjs [] = .ok ⟨[0], [1, 3, 2], [4]⟩ := by decide +kernel

example : order .none 0 exEndo exObjs [some 4, some 0, some 3, some 1, some 2] = .ok ⟨[], [4, 0, 3, 1, 2], []⟩ := by
  decide +kernel

/-- An equation named twice by the caller is solved twice and another one not at all. -/
theorem C32_unsorted_counterexample : ∃ b, order .none 5 exEndo (exObjs.take 2) [some 0, some 0, some 1] = .ok b ∧
    ¬ b.order.Perm (List.range 2) :=
  ⟨⟨[], [0, 0], []⟩, by decide +kernel, by decide +kernel⟩

/-- With fewer names than equations the list is read past its end. -/
theorem C32_unsorted_short_counterexample : order .none 5 exEndo exObjs [some 0, some 1] = .ub := by decide +kernel

end Iode.Sim
