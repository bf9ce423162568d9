import Verif.Model.Convert
import Verif.Spec.Convert
import Verif.Props.C39

/-!
# Loops of the conversions
-/
namespace Iode.Convert

open Iode.Lec Iode.Idt

variable {F : Type}

theorem get_ok {v : List F} {i : Nat} (h : i < v.length) : get v i = .ok v[i] := by
  unfold get; rw [List.getElem?_eq_getElem h]

theorem put_ok {v : List F} {i : Nat} {x : F} (h : i < v.length) : put v i x = .ok (v.set i x) := if_pos h

/-- Nothing is skipped in the target: `skip < shift`. -/
theorem skipLoop_spec (A : Arith F) {shift : Nat} (dst : List F) (t : Nat) : ∀ (n f : Nat), f + n ≤ shift →
    skipLoop A shift n f t dst = .ok (dst, t)
  | 0, _, _ => rfl
  | n + 1, f, h => by
    unfold skipLoop
    rw [if_neg]
    · exact skipLoop_spec A dst t n (f + 1) (by omega)
    · rintro ⟨h1, h2⟩
      rw [Nat.mod_eq_of_lt (by omega)] at h2
      exact h1 h2

theorem sumLoop_spec (A : Arith F) (x : List F) : ∀ (n i : Nat) (acc : F), i + n ≤ x.length →
    sumLoop A x n i acc = .ok (if ((x.drop i).take n).all A.isNum then ((x.drop i).take n).foldl A.add acc else A.na)
  | 0, i, acc, _ => by simp [sumLoop]
  | n + 1, i, acc, h => by
    unfold sumLoop
    rw [get_ok (by omega), Res.bindOk]
    have hd : (x.drop i).take (n + 1) = x[i] :: (x.drop (i + 1)).take n := by
      rw [List.drop_eq_getElem_cons (by omega), List.take_succ_cons]
    rw [hd]
    cases hv : A.isNum x[i] with
    | true => rw [if_pos rfl, sumLoop_spec A x n (i + 1) _ (by omega)]; simp [hv]
    | false => simp [hv]

theorem blockValue_spec (A : Arith F) (m : Method) (x : List F) {shift f : Nat} (hs : 0 < shift) (h : f + shift ≤ x.length) :
    blockValue A m x shift f (A.ofInt 0) = .ok (aggregate A m ((x.drop f).take shift)) := by
  have hl : ((x.drop f).take shift).length = shift := by simp; omega
  cases m with
  | last =>
    unfold blockValue aggregate
    simp only
    rw [get_ok (by omega)]
    congr 1
    rw [List.getLastD_eq_getLast?, List.getLast?_eq_getElem?, hl, List.getElem?_take_of_lt (by omega), List.getElem?_drop,
      show f + (shift - 1) = f + shift - 1 by omega, List.getElem?_eq_getElem (by omega)]
    rfl
  | sum =>
    unfold blockValue aggregate
    simp only
    rw [sumLoop_spec A x shift f _ h]
  | mean =>
    unfold blockValue aggregate
    simp only
    rw [sumLoop_spec A x shift f _ h, Res.bindOk, hl]

/-- The loop over the target periods. -/
theorem blockLoop_spec (A : Arith F) (m : Method) (x : List F) {shift nb : Nat} (hs : 0 < shift) (hx : x.length = nb) :
    ∀ (n f t : Nat) (dst : List F), nb < f + n → (∀ b, f + (b + 1) * shift ≤ nb → t + b < dst.length) →
      (∀ u, t ≤ u → u < dst.length → dst[u]? = some (A.ofInt 0)) →
      ∃ r k, blockLoop A m x shift nb n f t dst = .ok (r, t + k) ∧ r.length = dst.length ∧
        (∀ u, u < t → r[u]? = dst[u]?) ∧
        (∀ b, b < k ↔ f + (b + 1) * shift ≤ nb) ∧
        (∀ b, b < k → r[t + b]? = some (aggregate A m ((x.drop (f + b * shift)).take shift))) ∧ t + k ≤ max t dst.length
  | 0, f, t, dst, h, _, _ => by
    refine ⟨dst, 0, rfl, rfl, fun _ _ => rfl, fun b => ?_, fun b hb => absurd hb (Nat.not_lt_zero _), by omega⟩
    constructor
    · intro hb; omega
    · intro hb
      have : 0 < (b + 1) * shift := Nat.mul_pos (by omega) hs
      omega
  | n + 1, f, t, dst, h, hfit, hz => by
    unfold blockLoop
    by_cases hc : f + shift ≤ nb
    · rw [if_pos hc]
      have ht : t < dst.length := by have := hfit 0 (by omega); omega
      have h0 : dst[t] = A.ofInt 0 := by
        have := hz t (Nat.le_refl _) ht
        rw [List.getElem?_eq_getElem ht] at this
        exact Option.some.inj this
      rw [get_ok ht, Res.bindOk, h0, blockValue_spec A m x hs (by omega), Res.bindOk, put_ok ht, Res.bindOk]
      obtain ⟨r, k, e1, e2, e3, e4, e5, e6⟩ := blockLoop_spec A m x hs hx n (f + shift) (t + 1)
        (dst.set t (aggregate A m ((x.drop f).take shift))) (by omega)
        (fun b hb => by
          have := hfit (b + 1) (by rw [Nat.succ_mul (b + 1)]; omega)
          rw [List.length_set]; omega)
        (fun u h1 h2 => by
          rw [List.getElem?_set_ne (by omega)]
          exact hz u (by omega) (by rw [List.length_set] at h2; exact h2))
      rw [List.length_set] at e2 e6
      refine ⟨r, k + 1, by rw [e1]; congr 2; omega, e2, fun u hu => ?_, fun b => ?_, fun b hb => ?_, by omega⟩
      · rw [e3 u (by omega), List.getElem?_set_ne (by omega)]
      · cases b with
        | zero => constructor <;> intro <;> omega
        | succ b =>
          have := e4 b
          rw [Nat.succ_mul (b + 1)]
          omega
      · cases b with
        | zero =>
          rw [Nat.add_zero, e3 t (by omega), List.getElem?_set_self ht, Nat.zero_mul, Nat.add_zero]
        | succ b =>
          rw [show t + (b + 1) = t + 1 + b by omega, e5 b (by omega), Nat.succ_mul, show f + shift + b * shift = f + (b * shift + shift) by omega]
    · rw [if_neg hc]
      refine ⟨dst, 0, rfl, rfl, fun _ _ => rfl, fun b => ?_, fun b hb => absurd hb (Nat.not_lt_zero _), by omega⟩
      constructor
      · intro hb; omega
      · intro hb
        have : shift ≤ (b + 1) * shift := Nat.le_mul_of_pos_left _ (by omega)
        omega

theorem naLoop_spec (A : Arith F) : ∀ (n t : Nat) (dst : List F), t + n ≤ dst.length →
    ∃ r, naLoop A n t dst = .ok r ∧ r.length = dst.length ∧
      (∀ u, r[u]? = if t ≤ u ∧ u < t + n then some A.na else dst[u]?)
  | 0, t, dst, _ => ⟨dst, rfl, rfl, fun u => by rw [if_neg (by omega)]⟩
  | n + 1, t, dst, h => by
    unfold naLoop
    rw [put_ok (by omega), Res.bindOk]
    obtain ⟨r, e1, e2, e3⟩ := naLoop_spec A n (t + 1) (dst.set t A.na) (by rw [List.length_set]; omega)
    refine ⟨r, e1, by rw [e2, List.length_set], fun u => ?_⟩
    rw [e3 u]
    by_cases hu : u = t
    · subst hu
      rw [if_neg (by omega), if_pos (by omega), List.getElem?_set_self (by omega)]
    · rw [List.getElem?_set_ne (by omega)]
      by_cases h2 : t + 1 ≤ u ∧ u < t + 1 + n
      · rw [if_pos h2, if_pos (by omega)]
      · rw [if_neg h2, if_neg (by omega)]

/-- One variable: target period `t` gets the aggregate of the source values from `skip + t * shift` on. -/
theorem htolVar_spec (A : Arith F) (m : Method) {shift skip nb tn : Nat} {x : List F} (hs : 0 < shift) (hk : skip ≤ shift)
    (hx : x.length = nb) (hfit : ∀ b, skip + (b + 1) * shift ≤ nb → b < tn) :
    ∃ out, htolVar A m shift skip nb tn x = .ok out ∧ out.length = tn ∧ ∀ t, t < tn →
      out[t]? = some (if skip + (t + 1) * shift ≤ nb then aggregate A m ((x.drop (skip + t * shift)).take shift) else A.na) := by
  unfold htolVar
  rw [skipLoop_spec A _ _ skip 0 (by omega), Res.bindOk]
  obtain ⟨r, k, e1, e2, e3, e4, e5, e6⟩ := blockLoop_spec A m x hs hx (nb + 1) skip 0 (List.replicate tn (A.ofInt 0)) (by omega)
    (fun b hb => by rw [List.length_replicate]; have := hfit b hb; omega)
    (fun u _ hu => by rw [List.length_replicate] at hu; simp [hu])
  simp only
  rw [e1, Res.bindOk]
  simp only [Nat.zero_add, List.length_replicate, Nat.zero_max] at e2 e5 e6 ⊢
  obtain ⟨o, o1, o2, o3⟩ := naLoop_spec A (tn - k) k r (by omega)
  refine ⟨o, o1, by omega, fun t ht => ?_⟩
  rw [o3 t]
  by_cases h : t < k
  · rw [if_neg (by omega), if_pos ((e4 t).1 h), e5 t h]
  · rw [if_pos (by omega), if_neg (fun hh => h ((e4 t).2 hh))]

/-- The values of a series after a merge, by period. -/
def MergedBy (na : F) (vs ts : Sample) (old : Option (List F)) (y z : List F) : Prop :=
  z.length = vs.nb.toNat ∧ ∀ q t, vs.position q = .ok t →
    z[t.toNat]? = match ts.position q with
      | .ok u => y[u.toNat]?
      | _ => some ((old.bind (·[t.toNat]?)).getD na)

theorem mergeLoop_by {na : F} {vs ts : Sample} (hv : vs.Fair) (ht : ts.Fair) {d1 d2 n : Int}
    (ho : VWorld.overlap vs ts = .ok (d1, d2, n)) :
    ∀ (es : List (Name × List F)) (m : SMap (List F)), (es.map Prod.fst).Nodup →
    (∀ e ∈ es, e.2.length = ts.nb.toNat) → (∀ k x, m.find k = some x → x.length = vs.nb.toNat) →
    ∃ r, mergeLoop na vs.nb d1 d2 n es m = .ok r ∧
    (∀ k, k ∉ es.map Prod.fst → r.find k = m.find k) ∧
    (∀ e ∈ es, ∃ z, r.find e.1 = some z ∧ MergedBy na vs ts (m.find e.1) e.2 z)
  | [], m, _, _, _ => ⟨m, rfl, by simp⟩
  | (k, y) :: es, m, hnd, hy, hm => by
    obtain ⟨h1, h2, h3, h4, h5, _, _, h6, h7⟩ := VWorld.overlap_ok hv ht ho
    have hnb := hv.nb_pos
    have htb := ht.nb_pos
    unfold mergeLoop
    rw [if_neg (by omega)]
    have hlen : ((m.find k).getD (List.replicate vs.nb.toNat na)).length = vs.nb.toNat := by
      cases hk : m.find k with
      | none => simp
      | some x => simpa using hm k x hk
    have hyl := hy (k, y) (by simp)
    simp only at hyl
    obtain ⟨z, z1, z2, z3⟩ := VWorld.copyLoop_spec y n.toNat ((m.find k).getD (List.replicate vs.nb.toNat na)) d1.toNat d2.toNat
      (by omega) (by omega)
    rw [z1, Res.bindOk]
    simp only [List.map_cons, List.nodup_cons] at hnd
    obtain ⟨r, g0, g1, g2⟩ := mergeLoop_by hv ht ho es (m.insert k z) hnd.2 (fun e he => hy e (by simp [he])) (fun k' x hx => by
      rw [SMap.find_insert] at hx
      split at hx
      · cases hx; rw [z2, hlen]
      · exact hm k' x hx)
    refine ⟨r, g0, ?_, ?_⟩
    · intro k' hk'
      simp only [List.map_cons, List.mem_cons, not_or] at hk'
      rw [g1 k' hk'.2, SMap.find_insert_ne _ _ hk'.1]
    · intro e he
      rcases List.mem_cons.1 he with rfl | he
      · refine ⟨z, by rw [g1 _ hnd.1, SMap.find_insert_self], by rw [z2, hlen], fun q t hq => ?_⟩
        obtain ⟨t0, t1⟩ := position_ok hq
        rw [z3]
        by_cases hin : d1 ≤ t ∧ t < d1 + n
        · rw [if_pos (by omega), h6 q t hq hin.1 hin.2]
          simp only
          rw [show d2.toNat + (t.toNat - d1.toNat) = (t - d1 + d2).toNat by omega]
        · rw [if_neg (by omega), h7 q t hq hin]
          simp only
          cases hk : m.find k with
          | none =>
            rw [Option.getD_none, List.getElem?_replicate, if_pos (by omega)]
            rfl
          | some x =>
            have := hm k x hk
            rw [Option.getD_some, Option.bind_some, List.getElem?_eq_getElem (by omega)]
            rfl
      · obtain ⟨z', e1, e2⟩ := g2 e he
        refine ⟨z', e1, ?_⟩
        have hne : e.1 ≠ k := fun heq => hnd.1 (heq ▸ List.mem_map_of_mem he)
        rwa [SMap.find_insert_ne _ _ hne] at e2

/-- `KV_merge(ws, m, 1)`: it succeeds if the samples have a common period. -/
theorem merge_spec {na : F} {ws : VarDb F} {vs ts : Sample} (hv : vs.Fair) (ht : ts.Fair)
    (hlen : ∀ k x, ws.vars.find k = some x → x.length = vs.nb.toNat) {m : SMap (List F)} (hs : SMap.Sorted m)
    (hm : ∀ k y, m.find k = some y → y.length = ts.nb.toNat) :
    merge na ws vs ts m = .err ∧ (¬ ∃ q, vs.Contains q ∧ ts.Contains q) ∨
    ∃ ws', merge na ws vs ts m = .ok ws' ∧ ws'.smpl = ws.smpl ∧ (∀ k, m.has k = false → ws'.vars.find k = ws.vars.find k) ∧
      ∀ k y, m.find k = some y → ∃ z, ws'.vars.find k = some z ∧ MergedBy na vs ts (ws.vars.find k) y z := by
  unfold merge
  cases ho : VWorld.overlap vs ts with
  | ub => exact absurd ho (VWorld.overlap_no_ub hv ht)
  | err => exact Or.inl ⟨rfl, (VWorld.overlap_err_iff hv ht).1 ho⟩
  | ok p =>
    obtain ⟨d1, d2, n⟩ := p
    obtain ⟨r, g0, g1, g2⟩ := mergeLoop_by (na := na) hv ht ho m ws.vars (sorted_nodup hs)
      (fun e he => hm e.1 e.2 (find_of_mem hs e he)) hlen
    refine Or.inr ⟨⟨ws.smpl, r⟩, by simp only [g0, Res.bindOk], rfl, fun k hk => g1 k ?_, fun k y hy => g2 (k, y) (mem_of_find hy)⟩
    intro hmem
    rw [(SMap.has_iff_mem k m).2 hmem] at hk
    cases hk

end Iode.Convert
