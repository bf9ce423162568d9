import Verif.Props.C12

/-!
# C13  Merging variables aligns values on calendar periods

Specification: `mergedValue` gives the value a period of the receiving workspace shows after the merge, from the values
both workspaces showed before, at the same calendar period.
-/
namespace Iode
namespace VWorld
open World
variable {α : Type}

/-- `mine`: value of the variable in the receiving workspace at a period (`none`: no such variable); `theirs`: in the
    other workspace (`none`: no such variable), where the period itself may be outside its sample (`some none`). -/
def mergedValue (na : α) (replace : Bool) (mine : Option α) (theirs : Option (Option α)) : Option α :=
  match mine, theirs with
  | m, none => m
  | none, some t => some (t.getD na)
  | some x, some t => if replace then some (t.getD x) else some x

/-- The new content of a variable: values of `src` from position `d2` on written from position `d1` on. -/
def Patched (base src : List α) (d1 d2 n : Int) (x : List α) : Prop :=
  x.length = base.length ∧ ∀ t : Nat, x[t]? = if d1 ≤ t ∧ t < d1 + n then src[(t - d1 + d2).toNat]? else base[t]?

/-- Receiving and giving workspace of two families, with the bounds of their overlap. -/
structure Pair (v : VWorld α) (i j : Nat) (d1 d2 n : Int) : Prop where
  inv : Inv v
  apart : Apart ty v.w i j
  h1 : 0 ≤ d1
  h2 : 0 ≤ d2
  h3 : 0 ≤ n
  h4 : d1 + n ≤ v.nb i
  h5 : d2 + n ≤ v.nb j

theorem val_length {v : VWorld α} (h : Inv v) {i : Nat} {k : Name} {x : List α} (hx : v.w.val i k = some x) :
    (x.length : Int) = v.nb i := by
  unfold World.val at hx
  cases hf : (v.w.dbs i).objs.find k with
  | none => rw [hf] at hx; cases hx
  | some a => rw [hf] at hx; cases hx; exact h.len i k a hf

theorem getObjPtr_of_val {w : World (List α)} (hk : w.KeysOk ty) {i : Nat} {k : Name} {x : List α}
    (hx : w.val i k = some x) : ∃ a, (w.dbs i).getObjPtr ty k = some a ∧ (w.dbs i).objs.find k = some a ∧ w.heap a = x := by
  have hc := val_key_checked hk hx
  have hkk := toKey_of_checkName hc
  unfold World.val at hx
  cases hf : (w.dbs i).objs.find k with
  | none => rw [hf] at hx; cases hx
  | some a =>
    rw [hf] at hx
    refine ⟨a, ?_, rfl, by simpa using hx⟩
    rw [getObjPtr_of_ne (by decide), hkk, if_neg, hf]
    intro e; rw [e] at hc; simp [checkName] at hc

theorem patch_exists {base src : List α} {d1 d2 n : Int} (h1 : 0 ≤ d1) (h2 : 0 ≤ d2) (h3 : 0 ≤ n)
    (h4 : d1 + n ≤ base.length) (h5 : d2 + n ≤ src.length) :
    ∃ x, copyLoop base src d1.toNat d2.toNat n.toNat = .ok x ∧ Patched base src d1 d2 n x := by
  obtain ⟨x, hx, hl, hv⟩ := copyLoop_spec src n.toNat base d1.toNat d2.toNat (by omega) (by omega)
  refine ⟨x, hx, hl, fun t => ?_⟩
  rw [hv t]
  by_cases hc : d1 ≤ t ∧ t < d1 + n
  · rw [if_pos hc, if_pos (by omega)]; congr 1; omega
  · rw [if_neg hc, if_neg (by omega)]

/-- Writing the object of key `k` of the receiving workspace. -/
theorem Pair.write {v : VWorld α} {i j : Nat} {d1 d2 n : Int} (h : Pair v i j d1 d2 n) {k : Name} {a : Nat} {x : List α}
    (ha : (v.w.dbs i).objs.find k = some a) (hp : (v.w.dbs i).getObjPtr ty k = some a)
    (hx : x.length = (v.w.heap a).length) :
    Pair { v with w := v.w.writeCore a x } i j d1 d2 n ∧
    (∀ k', (v.w.writeCore a x).val j k' = v.w.val j k') ∧
    (∀ k', (v.w.writeCore a x).val i k' = if k' = k then some x else v.w.val i k') := by
  have hst : Steps ty ⟨false, false⟩ (· = i) v.w (v.w.writeCore a x) := Steps.one rfl (Prim.write x hp)
  have hkept := kept_of_steps (by decide) h.apart hst rfl rfl
  refine ⟨⟨h.inv.write a x hx, hkept.apart, h.h1, h.h2, h.h3, h.h4, h.h5⟩, hkept.val, ?_⟩
  intro k'
  rw [write_val h.inv.base.good.unshared ha]

theorem kvMergeOne_spec {na : α} {v : VWorld α} {i j : Nat} {d1 d2 n : Int} (h : Pair v i j d1 d2 n) {rep : Bool}
    {k : Name} {src : List α} (hsrc : v.w.val j k = some src) :
    (v.kvMergeOne na i j d1 d2 n rep k).2 = .ok true ∧ Pair (v.kvMergeOne na i j d1 d2 n rep k).1 i j d1 d2 n ∧
    (v.kvMergeOne na i j d1 d2 n rep k).1.smp = v.smp ∧
    (v.kvMergeOne na i j d1 d2 n rep k).1.w.dbs j = v.w.dbs j ∧
    (∀ k', (v.kvMergeOne na i j d1 d2 n rep k).1.w.val j k' = v.w.val j k') ∧
    (∀ k', k' ≠ k → (v.kvMergeOne na i j d1 d2 n rep k).1.w.val i k' = v.w.val i k') ∧
    (rep = false → ∀ b, v.w.val i k = some b → (v.kvMergeOne na i j d1 d2 n rep k).1.w.val i k = some b) ∧
    (rep = true ∨ v.w.val i k = none →
      ∃ x, (v.kvMergeOne na i j d1 d2 n rep k).1.w.val i k = some x ∧
        Patched ((v.w.val i k).getD (List.replicate (v.nb i).toNat na)) src d1 d2 n x) := by
  have hty : ty ≠ ObjType.comments := by decide
  have hg := h.inv.base.good
  have hck := val_key_checked hg.keys hsrc
  have hkk := toKey_of_checkName hck
  have hcon : (v.w.dbs i).contains ty k = (v.w.dbs i).objs.has k := contains_key hty _ hkk
  have hsl := val_length h.inv hsrc
  cases hv : v.w.val i k with
  | some b =>
    have hhas : (v.w.dbs i).contains ty k = true := by rw [hcon]; exact val_isSome.1 ⟨b, hv⟩
    have hbl := val_length h.inv hv
    cases rep with
    | false =>
      have he : v.kvMergeOne na i j d1 d2 n false k = (v, .ok true) := by
        unfold VWorld.kvMergeOne; simp only [hhas, and_self, if_true]
      rw [he]
      refine ⟨rfl, h, rfl, rfl, fun _ => rfl, fun _ _ => rfl, fun _ b' hb' => ?_, ?_⟩
      · cases hb'; exact hv
      · rintro (hc | hc) <;> cases hc
    | true =>
      obtain ⟨a1, hp1, hf1, hh1⟩ := getObjPtr_of_val hg.keys hv
      obtain ⟨a2, hp2, hf2, hh2⟩ := getObjPtr_of_val hg.keys hsrc
      obtain ⟨x, hx, hpat⟩ := patch_exists (base := b) (src := src) h.h1 h.h2 h.h3 (by rw [hbl]; exact h.h4) (by rw [hsl]; exact h.h5)
      have he : v.kvMergeOne na i j d1 d2 n true k = ({ v with w := v.w.writeCore a1 x }, .ok true) := by
        unfold VWorld.kvMergeOne
        have hg1 := h.h1
        have hg2 := h.h2
        simp only [hhas, hp1, hp2, hh1, hh2, hx, Bool.true_eq_false, and_false, if_false]
        rw [if_neg (by omega)]
      rw [he]
      obtain ⟨w1, w2, w3⟩ := h.write hf1 hp1 (x := x) (by rw [hh1]; exact hpat.1)
      refine ⟨rfl, w1, rfl, rfl, w2, fun k' hk' => by rw [w3, if_neg hk'], fun hc => (by cases hc), fun _ => ⟨x, by rw [w3, if_pos rfl], ?_⟩⟩
      exact hpat
  | none =>
    have hhas : (v.w.dbs i).contains ty k = false := by rw [hcon, ← val_none]; exact hv
    have hnn : 0 ≤ v.nb i := by
      unfold nb
      split
      · omega
      · rename_i s hs
        have := (h.inv.fair i s hs).nb_pos; omega
    -- the new variable
    obtain ⟨s1, s2, s3, s4⟩ := set_val hty hg.wf h.apart.top (name := k) (by rw [hkk]; exact hck) (List.replicate (v.nb i).toNat na)
    rw [hkk] at s2
    have hst := set_steps ty (fl := ⟨false, false⟩) h.apart.hi k (List.replicate (v.nb i).toNat na)
    have hkept := kept_of_steps hty h.apart hst (s3 i) s4
    have hvset : v.set i k (List.replicate (v.nb i).toNat na) = v.withW (v.w.set ty i k (List.replicate (v.nb i).toNat na)) := by
      unfold VWorld.set VWorld.setObjPtr
      simp only
      rw [if_pos]
      · rfl
      · show decide (((if v.w.nHeap = v.w.nHeap then (List.replicate (v.nb i).toNat na) else v.w.heap v.w.nHeap).length : Int) = v.nb i) = true
        rw [if_pos rfl]
        simp only [List.length_replicate, decide_eq_true_eq]; omega
    have hinv := (h.inv.set h.apart.hi k (List.replicate (v.nb i).toNat na)).1
    rw [hvset] at hinv
    have hpair : Pair (v.withW (v.w.set ty i k (List.replicate (v.nb i).toNat na))).1 i j d1 d2 n :=
      ⟨hinv, hkept.apart, h.h1, h.h2, h.h3, h.h4, h.h5⟩
    have hv1 : (v.withW (v.w.set ty i k (List.replicate (v.nb i).toNat na))).1.w.val i k = some (List.replicate (v.nb i).toNat na) := by
      show (v.w.set ty i k _).1.val i k = _
      rw [s2, if_pos rfl]
    have hsrc1 : (v.withW (v.w.set ty i k (List.replicate (v.nb i).toNat na))).1.w.val j k = some src := by
      show (v.w.set ty i k _).1.val j k = _
      rw [hkept.val, hsrc]
    have hs2 : ∀ k', (v.withW (v.w.set ty i k (List.replicate (v.nb i).toNat na))).1.w.val i k' =
        if k' = k then some (List.replicate (v.nb i).toNat na) else v.w.val i k' := s2
    have hkv : ∀ k', (v.withW (v.w.set ty i k (List.replicate (v.nb i).toNat na))).1.w.val j k' = v.w.val j k' := hkept.val
    have hdb : (v.withW (v.w.set ty i k (List.replicate (v.nb i).toNat na))).1.w.dbs j = v.w.dbs j := hkept.db
    have hres : (v.withW (v.w.set ty i k (List.replicate (v.nb i).toNat na))).2 = .ok true := s1
    have hsmp : (v.withW (v.w.set ty i k (List.replicate (v.nb i).toNat na))).1.smp = v.smp := rfl
    have hone : v.kvMergeOne na i j d1 d2 n rep k =
        match v.withW (v.w.set ty i k (List.replicate (v.nb i).toNat na)) with
        | (v1, .ok _) =>
          match (v1.w.dbs i).getObjPtr ty k, (v1.w.dbs j).getObjPtr ty k with
          | some a1, some a2 =>
            if n > 0 ∧ (d1 < 0 ∨ d2 < 0) then (v1, .ub)
            else match copyLoop (v1.w.heap a1) (v1.w.heap a2) d1.toNat d2.toNat n.toNat with
              | .ok x => ({ v1 with w := v1.w.writeCore a1 x }, .ok true)
              | .err => (v1, .err)
              | .ub => (v1, .ub)
          | _, _ => (v1, .err)
        | (v1, r) => (v1, r) := by
      unfold VWorld.kvMergeOne
      simp only [hhas, Bool.false_eq_true, false_and, if_false, if_true]
      rw [if_neg (by omega), hvset]
      generalize v.withW (v.w.set ty i k (List.replicate (v.nb i).toNat na)) = p
      obtain ⟨v1, r⟩ := p
      cases r <;> rfl
    rw [hone]
    generalize v.withW (v.w.set ty i k (List.replicate (v.nb i).toNat na)) = p at *
    obtain ⟨v1, r⟩ := p
    simp only at hres hpair hv1 hsrc1 hs2 hkv hdb hsmp
    subst hres
    obtain ⟨a1, hp1, hf1, hh1⟩ := getObjPtr_of_val hpair.inv.base.good.keys hv1
    obtain ⟨a2, hp2, hf2, hh2⟩ := getObjPtr_of_val hpair.inv.base.good.keys hsrc1
    have hl1 := val_length hpair.inv hv1
    have hl2 := val_length hpair.inv hsrc1
    obtain ⟨x, hx, hpat⟩ := patch_exists (base := List.replicate (v.nb i).toNat na) (src := src) h.h1 h.h2 h.h3
      (by rw [hl1]; exact hpair.h4) (by rw [hl2]; exact hpair.h5)
    have hg1 := h.h1
    have hg2 := h.h2
    simp only [hp1, hp2, hh1, hh2, hx]
    rw [if_neg (by omega)]
    obtain ⟨w1, w2, w3⟩ := hpair.write hf1 hp1 (x := x) (by rw [hh1]; exact hpat.1)
    refine ⟨rfl, w1, hsmp, hdb, fun k' => (w2 k').trans (hkv k'), ?_, ?_, ?_⟩
    · intro k' hk'
      show (v1.w.writeCore a1 x).val i k' = _
      rw [w3, if_neg hk', hs2, if_neg hk']
    · intro _ b hb; cases hb
    · intro _
      refine ⟨x, ?_, ?_⟩
      · show (v1.w.writeCore a1 x).val i k = _
        rw [w3, if_pos rfl]
      · simpa using hpat

theorem kvMergeLoop_spec {na : α} {i j : Nat} {d1 d2 n : Int} {rep : Bool} (ks : List Name) {v : VWorld α}
    (h : Pair v i j d1 d2 n) (hnd : ks.Nodup) (hks : ∀ k ∈ ks, ∃ src, v.w.val j k = some src) :
    (v.kvMergeLoop na i j d1 d2 n rep ks).2 = .ok true ∧ Pair (v.kvMergeLoop na i j d1 d2 n rep ks).1 i j d1 d2 n ∧
    (v.kvMergeLoop na i j d1 d2 n rep ks).1.smp = v.smp ∧
    (∀ k', (v.kvMergeLoop na i j d1 d2 n rep ks).1.w.val j k' = v.w.val j k') ∧
    (∀ k', ¬ (k' ∈ ks ∧ (rep = true ∨ v.w.val i k' = none)) →
      (v.kvMergeLoop na i j d1 d2 n rep ks).1.w.val i k' = v.w.val i k') ∧
    (∀ k' src, k' ∈ ks → (rep = true ∨ v.w.val i k' = none) → v.w.val j k' = some src →
      ∃ x, (v.kvMergeLoop na i j d1 d2 n rep ks).1.w.val i k' = some x ∧
        Patched ((v.w.val i k').getD (List.replicate (v.nb i).toNat na)) src d1 d2 n x) := by
  induction ks generalizing v with
  | nil =>
    refine ⟨rfl, h, rfl, fun _ => rfl, fun _ _ => rfl, ?_⟩
    intro k' _ hm; cases hm
  | cons k ks ih =>
    obtain ⟨hnk, hnd'⟩ := List.nodup_cons.1 hnd
    obtain ⟨src, hsrc⟩ := hks k (by simp)
    obtain ⟨o1, o2, o3, o4, o5, o6, o7, o8⟩ := kvMergeOne_spec (na := na) h (rep := rep) hsrc
    simp only [VWorld.kvMergeLoop]
    generalize v.kvMergeOne na i j d1 d2 n rep k = p at *
    obtain ⟨v1, r⟩ := p
    simp only at o1 o2 o3 o4 o5 o6 o7 o8
    subst o1
    simp only
    have hnb : v1.nb i = v.nb i := nb_congr' o3
    obtain ⟨r1, r2, r3, r4, r5, r6⟩ := ih o2 hnd' (by
      intro k' hk'
      obtain ⟨s, hs⟩ := hks k' (by simp [hk'])
      exact ⟨s, by rw [o5]; exact hs⟩)
    refine ⟨r1, r2, r3.trans o3, fun k' => (r4 k').trans (o5 k'), ?_, ?_⟩
    · intro k' hk'
      by_cases he : k' = k
      · subst he
        rw [r5 k' (by rintro ⟨h1, -⟩; exact hnk h1)]
        have hc : ¬ (rep = true ∨ v.w.val i k' = none) := fun hc => hk' ⟨by simp, hc⟩
        cases hv : v.w.val i k' with
        | none => exact absurd (Or.inr hv) hc
        | some b =>
          have hrep : rep = false := by
            cases rep with
            | false => rfl
            | true => exact absurd (Or.inl rfl) hc
          exact o7 hrep b hv
      · rw [r5 k', o6 k' he]
        rintro ⟨h1, h2⟩
        rw [o6 k' he] at h2
        exact hk' ⟨by simp [h1], h2⟩
    · intro k' s hk' hc hs
      by_cases he : k' = k
      · subst he
        rw [r5 k' (by rintro ⟨h1, -⟩; exact hnk h1)]
        rw [hsrc] at hs; cases hs
        exact o8 hc
      · have hk2 : k' ∈ ks := by
          rcases List.mem_cons.1 hk' with h1 | h1
          · exact absurd h1 he
          · exact h1
        have := r6 k' s hk2 (by rw [o6 k' he]; exact hc) (by rw [o5]; exact hs)
        rw [o6 k' he, hnb] at this
        exact this
where
  nb_congr' {v v1 : VWorld α} {i : Nat} (h : v1.smp = v.smp) : v1.nb i = v.nb i := by unfold nb; rw [h]

theorem keys_nodup {m : SMap Nat} (h : SMap.Sorted m) : m.keys.Nodup := by
  induction m with
  | nil => simp [SMap.keys]
  | cons e l ih =>
    obtain ⟨k, x⟩ := e
    obtain ⟨h1, h2⟩ := h
    show (k :: SMap.keys l).Nodup
    rw [List.nodup_cons]
    refine ⟨?_, ih h2⟩
    intro hm
    have := h1 k hm
    rw [SMap.nameLt_irrefl] at this; cases this

/-- `KV_merge` once both samples are known. -/
theorem kvMergeBody_spec {na : α} {v : VWorld α} (h : Inv v) {i j : Nat} (hap : Apart ty v.w i j) {s1 s2 : Sample}
    (hs1 : v.smp i = some s1) (hs2 : v.smp j = some s2) (rep : Bool) :
    (v.kvMergeBody na i j rep = (v, .err) ∧ ¬ ∃ q, s1.Contains q ∧ s2.Contains q) ∨
    ((v.kvMergeBody na i j rep).2 = .ok true ∧ (∃ q, s1.Contains q ∧ s2.Contains q) ∧
      Inv (v.kvMergeBody na i j rep).1 ∧ (v.kvMergeBody na i j rep).1.smp = v.smp ∧
      (∀ name, (v.kvMergeBody na i j rep).1.look j name = v.look j name) ∧
      (∀ name q, s1.Contains q → (v.kvMergeBody na i j rep).1.valueAt i name q =
        mergedValue na rep (v.valueAt i name q) ((v.look j name).map (fun _ => v.valueAt j name q)))) := by
  have hty : ty ≠ ObjType.comments := by decide
  have f1 := h.fair i s1 hs1
  have f2 := h.fair j s2 hs2
  cases hov : overlap s1 s2 with
  | ub => exact absurd hov (overlap_no_ub f1 f2)
  | err =>
    left
    refine ⟨?_, (overlap_err_iff f1 f2).1 hov⟩
    unfold VWorld.kvMergeBody; simp only [hs1, hs2, hov]
  | ok p =>
    right
    obtain ⟨d1, d2, n⟩ := p
    obtain ⟨g1, g2, g3, g4, g5, o1, o2, o3, o4⟩ := overlap_ok f1 f2 hov
    have hn1 : v.nb i = s1.nb := by unfold nb; rw [hs1]
    have hn2 : v.nb j = s2.nb := by unfold nb; rw [hs2]
    have he : v.kvMergeBody na i j rep = v.kvMergeLoop na i j d1 d2 n rep (v.w.dbs j).objs.keys := by
      unfold VWorld.kvMergeBody; simp only [hs1, hs2, hov]
    have hpair : Pair v i j d1 d2 n := ⟨h, hap, g1, g2, by omega, by omega, by omega⟩
    obtain ⟨r1, r2, r3, r4, r5, r6⟩ := kvMergeLoop_spec (na := na) (rep := rep) (v.w.dbs j).objs.keys hpair
      (keys_nodup (h.base.sorted j)) (by
        intro k hk
        rw [← SMap.has_iff_mem] at hk
        exact val_isSome.2 hk)
    rw [he]
    have hlook : ∀ (u : VWorld α), Inv u → ∀ x name, u.look x name = u.w.val x (toKey ty name) :=
      fun u hu x name => look_eq hty hu.base.good.keys x name
    refine ⟨r1, ?_, r2.inv, r3, ?_, ?_⟩
    · apply Classical.byContradiction
      intro hc
      rw [(overlap_err_iff f1 f2).2 hc] at hov; cases hov
    · intro name
      rw [hlook _ r2.inv, hlook _ h, r4]
    · intro name q hq
      obtain ⟨t, ht⟩ := position_of_contains f1 hq
      obtain ⟨b0, b1⟩ := position_bounds ht
      have htt : ((t.toNat : Nat) : Int) = t := Int.toNat_of_nonneg b0
      have hs1' : (v.kvMergeLoop na i j d1 d2 n rep (v.w.dbs j).objs.keys).1.smp i = some s1 := by rw [r3]; exact hs1
      -- unchanged variables
      have keep : (v.kvMergeLoop na i j d1 d2 n rep (v.w.dbs j).objs.keys).1.w.val i (toKey ty name) = v.w.val i (toKey ty name) →
          (v.kvMergeLoop na i j d1 d2 n rep (v.w.dbs j).objs.keys).1.valueAt i name q = v.valueAt i name q := by
        intro hk
        unfold valueAt
        rw [hs1', hs1]
        simp only [ht]
        rw [hlook _ r2.inv, hlook _ h, hk]
      cases hvj : v.w.val j (toKey ty name) with
      | none =>
        have hnj : v.look j name = none := by rw [hlook _ h]; exact hvj
        have hmem : toKey ty name ∉ (v.w.dbs j).objs.keys := by
          rw [← SMap.has_iff_mem]; rw [val_none] at hvj; simp [hvj]
        rw [keep (r5 _ (fun hc => hmem hc.1)), hnj]
        simp only [Option.map_none]
        unfold mergedValue; split <;> simp_all
      | some src =>
        have hnj : v.look j name = some src := by rw [hlook _ h]; exact hvj
        have hmem : toKey ty name ∈ (v.w.dbs j).objs.keys := by
          rw [← SMap.has_iff_mem]; exact val_isSome.1 ⟨src, hvj⟩
        have hsl := val_length h hvj
        -- value of the source at the period
        have hsrcv : v.valueAt j name q = if d1 ≤ t ∧ t < d1 + n then src[(t - d1 + d2).toNat]? else none := by
          split
          · rename_i hc
            exact valueAt_in hs2 (o3 q t ht hc.1 hc.2) hnj
          · rename_i hc
            exact valueAt_out hs2 (o4 q t ht hc)
        rw [hnj]
        simp only [Option.map_some]
        by_cases hch : rep = true ∨ v.w.val i (toKey ty name) = none
        · obtain ⟨x, hx, hpat⟩ := r6 _ src hmem hch hvj
          have hnew : (v.kvMergeLoop na i j d1 d2 n rep (v.w.dbs j).objs.keys).1.valueAt i name q = x[t.toNat]? :=
            valueAt_in hs1' ht (by rw [hlook _ r2.inv]; exact hx)
          rw [hnew, hpat.2 t.toNat, htt, hsrcv]
          have hsome : d1 ≤ t ∧ t < d1 + n → ∃ y, src[(t - d1 + d2).toNat]? = some y := by
            intro hc
            exact getElem?_toNat (by omega) (by rw [hsl, hn2]; omega)
          cases hvi : v.w.val i (toKey ty name) with
          | none =>
            have hmine : v.valueAt i name q = none := by
              unfold valueAt; rw [hs1]; simp only [ht]; rw [hlook _ h, hvi]; rfl
            rw [hmine]
            simp only [Option.getD_none, mergedValue]
            by_cases hc : d1 ≤ t ∧ t < d1 + n
            · obtain ⟨y, hy⟩ := hsome hc
              rw [if_pos hc, if_pos hc, hy]; rfl
            · rw [if_neg hc, if_neg hc, List.getElem?_replicate, if_pos (by omega)]; rfl
          | some b =>
            have hbl := val_length h hvi
            obtain ⟨z, hz⟩ := getElem?_toNat (x := b) b0 (by rw [hbl, hn1]; exact b1)
            have hmine : v.valueAt i name q = some z := by
              rw [valueAt_in hs1 ht (by rw [hlook _ h]; exact hvi)]; exact hz
            have hrep : rep = true := by
              rcases hch with hc | hc
              · exact hc
              · rw [hvi] at hc; cases hc
            subst hrep
            rw [hmine]
            simp only [Option.getD_some, mergedValue, if_true]
            by_cases hc : d1 ≤ t ∧ t < d1 + n
            · obtain ⟨y, hy⟩ := hsome hc
              rw [if_pos hc, if_pos hc, hy]; rfl
            · rw [if_neg hc, if_neg hc, hz]; rfl
        · rw [keep (r5 _ (fun hc => hch hc.2))]
          have hrep : rep = false := by
            cases rep with
            | false => rfl
            | true => exact absurd (Or.inl rfl) hch
          subst hrep
          cases hvi : v.w.val i (toKey ty name) with
          | none => exact absurd (Or.inr hvi) hch
          | some b =>
            have hbl := val_length h hvi
            obtain ⟨z, hz⟩ := getElem?_toNat (x := b) b0 (by rw [hbl, hn1]; exact b1)
            have hmine : v.valueAt i name q = some z := by
              rw [valueAt_in hs1 ht (by rw [hlook _ h]; exact hvi)]; exact hz
            rw [hmine]; simp [mergedValue]

end VWorld
open VWorld World

/-- C13. In every state a regular history reaches, for a top-level workspace `i` that has a sample and a workspace `j` of
    another family that has one: the merge fails, and changes nothing, exactly when the samples have no common period;
    otherwise every name of `i`, at every period of its sample, shows the specified value, `j` is unchanged and so is
    the sample of `i`. Missing for the full claim: workspaces of one family (see the counterexample), a receiving
    workspace that is a subset, a giving workspace without sample (null pointer). -/
theorem C13_merge_partial {α : Type} (na : α) (ops : List (VOp α)) (hr : Regular na VWorld.init ops) (i j : Nat) (rep : Bool)
    (hi : i < ((VWorld.init : VWorld α).run na ops).w.nDbs) (hj : j < ((VWorld.init : VWorld α).run na ops).w.nDbs)
    (hk : (((VWorld.init : VWorld α).run na ops).w.dbs i).kind ≠ .subset)
    (hne : ((VWorld.init : VWorld α).run na ops).w.topOf j ≠ some i)
    (s1 s2 : Sample) (hs1 : ((VWorld.init : VWorld α).run na ops).smp i = some s1)
    (hs2 : ((VWorld.init : VWorld α).run na ops).smp j = some s2) :
    let v := (VWorld.init : VWorld α).run na ops
    let v' := (v.kvMerge na i j rep).1
    ((v.kvMerge na i j rep).2 ≠ .ok true ↔ ¬ ∃ q, s1.Contains q ∧ s2.Contains q) ∧
    ((v.kvMerge na i j rep).2 ≠ .ok true → v' = v ∧ (v.kvMerge na i j rep).2 = .err) ∧
    ((v.kvMerge na i j rep).2 = .ok true →
      v'.smp = v.smp ∧ (∀ name, v'.look j name = v.look j name) ∧
      ∀ name q, s1.Contains q → v'.valueAt i name q =
        mergedValue na rep (v.valueAt i name q) ((v.look j name).map (fun _ => v.valueAt j name q))) := by
  have h := Inv.run ops (Inv.init (α := α)) hr
  simp only
  generalize (VWorld.init : VWorld α).run na ops = v at *
  have hap : Apart ty v.w i j := by
    refine ⟨h.base.good, hi, hj, hk, ?_⟩
    rw [rootOf_of_ne hk]
    intro e; apply hne; rw [topOf_eq h.base.good.wf, ← e]
  have he : v.kvMerge na i j rep = v.kvMergeBody na i j rep := by
    unfold VWorld.kvMerge; simp only [hs1]
  rw [he]
  rcases kvMergeBody_spec (na := na) h hap hs1 hs2 rep with ⟨h1, h2⟩ | ⟨h1, h2, -, h4, h5, h6⟩
  · rw [h1]
    exact ⟨⟨fun _ => h2, fun _ => by simp⟩, fun _ => ⟨rfl, rfl⟩, fun hc => by cases hc⟩
  · exact ⟨⟨fun hc => absurd h1 hc, fun hc => absurd h2 hc⟩, fun hc => absurd h1 hc, fun _ => ⟨h4, h5, h6⟩⟩

/-- C13. A top-level workspace without sample takes the sample of the other one; existing variables (which have no value)
    become NA. -/
theorem C13_merge_into_new_partial {α : Type} (na : α) (ops : List (VOp α)) (hr : Regular na VWorld.init ops) (i j : Nat)
    (rep : Bool)
    (hi : i < ((VWorld.init : VWorld α).run na ops).w.nDbs) (hj : j < ((VWorld.init : VWorld α).run na ops).w.nDbs)
    (hk : (((VWorld.init : VWorld α).run na ops).w.dbs i).kind ≠ .subset)
    (hne : ((VWorld.init : VWorld α).run na ops).w.topOf j ≠ some i)
    (s2 : Sample) (hs1 : ((VWorld.init : VWorld α).run na ops).smp i = none)
    (hs2 : ((VWorld.init : VWorld α).run na ops).smp j = some s2) :
    let v := (VWorld.init : VWorld α).run na ops
    let v' := (v.kvMerge na i j rep).1
    (v.kvMerge na i j rep).2 = .ok true ∧ v'.smp i = some s2 ∧ (∀ name, v'.look j name = v.look j name) ∧
      ∀ name q, s2.Contains q → v'.valueAt i name q =
        mergedValue na rep ((v.look i name).map (fun _ => na)) ((v.look j name).map (fun _ => v.valueAt j name q)) := by
  have hset := C12_set_sample_partial na ops hr i s2
  have h := Inv.run ops (Inv.init (α := α)) hr
  simp only at hset ⊢
  generalize (VWorld.init : VWorld α).run na ops = v at *
  have hf2 := h.fair j s2 hs2
  have hwf := h.base.good.wf
  have hroot : v.w.rootOf i ≠ v.w.rootOf j := by
    rw [rootOf_of_ne hk]
    intro e; apply hne; rw [topOf_eq hwf, ← e]
  have hji : j ≠ i := fun e => hroot (by rw [e])
  have hjc : j ∉ (v.w.dbs i).children := by
    intro hc
    obtain ⟨-, h2, h3⟩ := hwf.kids i j hc
    exact hroot (by rw [rootOf_of_ne hk, rootOf_of_subset h2 h3])
  have hset := hset hf2
  have hinv1 := h.setSample (na := na) (i := i) hf2
  rcases setSample_cases (na := na) (i := i) h hf2 with ⟨hsm, -⟩ | ⟨-, hkk, -⟩ | ⟨-, -, old, hold, -, -⟩ |
    ⟨-, -, d1, d2, n, f, -, he, -⟩
  · rw [hs1] at hsm; cases hsm
  · exact absurd hkk hk
  · rw [hs1] at hold; cases hold
  · rw [he] at hset hinv1
    obtain ⟨-, hset⟩ := hset
    obtain ⟨g1, g2, g3, g4⟩ := hset rfl
    obtain ⟨g4a, g4b⟩ := g4 j hji hjc
    have heq : v.kvMerge na i j rep = (⟨{ v.w with heap := f }, fun j => if j = i ∨ j ∈ (v.w.dbs i).children then some s2 else v.smp j⟩ : VWorld α).kvMergeBody na i j rep := by
      unfold VWorld.kvMerge
      simp only [hs1, hs2, he]
      simp
    rw [heq]
    have hap : Apart ty (⟨{ v.w with heap := f }, fun j => if j = i ∨ j ∈ (v.w.dbs i).children then some s2 else v.smp j⟩ : VWorld α).w i j :=
      ⟨hinv1.1.base.good, hi, hj, hk, hroot⟩
    generalize (⟨{ v.w with heap := f }, fun j => if j = i ∨ j ∈ (v.w.dbs i).children then some s2 else v.smp j⟩ : VWorld α) = v1 at *
    have hs2' : v1.smp j = some s2 := by rw [g4a]; exact hs2
    rcases kvMergeBody_spec (na := na) hinv1.1 hap g1 hs2' rep with ⟨-, h2⟩ | ⟨h1, -, -, h4, h5, h6⟩
    · exfalso
      apply h2
      obtain ⟨m, ⟨hws, -, -, hd⟩, -, -⟩ := hf2
      obtain ⟨nb, hnb, b1, b2⟩ := hws
      have hc : s2.Contains s2.start := by
        refine ⟨⟨nb, hnb, b1, b2⟩, rfl, nb, hnb, Int.le_refl _, ?_⟩
        have hp := (h.fair j s2 hs2).proper.same
        rw [Period.difference_spec (by rw [hp]; exact hnb) hp] at hd
        simp only [Res.ok.injEq] at hd; omega
      exact ⟨_, hc, hc⟩
    · refine ⟨h1, by rw [h4]; exact g1, fun name => (h5 name).trans (g4b name), ?_⟩
      intro name q hq
      rw [h6 name q hq, g4b]
      have hvj : v1.valueAt j name q = v.valueAt j name q := by
        unfold valueAt; rw [g4a, g4b]
      rw [hvj]
      cases hl : v.look i name with
      | none =>
        have : v1.valueAt i name q = none := by
          have := (g2 name).2 hl
          unfold valueAt; rw [g1]; simp only [this]; split <;> rfl
        rw [this]; rfl
      | some x =>
        have hv0 : v.valueAt i name q = none := by unfold valueAt; rw [hs1]
        rw [g3 name q (by rw [hl]; simp) hq, hv0]; rfl

/-! ### Example and counterexample -/

def twoSamples : List (VOp Int) :=
  [.create true, .setSample 0 smp3, .set 0 "A".toList [1, 2, 3], .set 0 "C".toList [7, 8, 9],
   .create false, .setSample 1 smp4, .set 1 "A".toList [10, 20, 30, 40], .set 1 "B".toList [50, 60, 70, 80]]

example :
    let v := (VWorld.init : VWorld Int).run (-1) twoSamples
    (v.kvMerge (-1) 0 1 true).2 = .ok true ∧
    (v.kvMerge (-1) 0 1 true).1.look 0 "A".toList = some [1, 10, 20] ∧
    (v.kvMerge (-1) 0 1 true).1.look 0 "B".toList = some [-1, 50, 60] ∧
    (v.kvMerge (-1) 0 1 false).1.look 0 "A".toList = some [1, 2, 3] ∧
    (v.kvMerge (-1) 0 1 false).1.look 0 "C".toList = some [7, 8, 9] := by decide

example : Regular (-1) VWorld.init twoSamples := by
  have h3 := smp3_fair
  have h4 := smp4_fair
  simp only [Regular, twoSamples, VOp.RenamesOntoUsed, VOp.ClearsSubset, VOp.BadSample]
  simp [h3, h4]

/-- Merging a workspace into one of its own subsets destroys the values of the variables the subset does not have. -/
theorem C13_into_subset_counterexample :
    let v := (VWorld.init : VWorld Int).run (-1) [.create true, .setSample 0 smp3, .set 0 "A".toList [1, 2, 3],
      .set 0 "B".toList [4, 5, 6], .subset 0 (some ["A".toList]) false]
    (v.kvMerge (-1) 1 0 true).2 = .ok true ∧ (v.kvMerge (-1) 1 0 true).1.look 0 "B".toList = some [-1, -1, -1] ∧
    (v.kvMerge (-1) 1 0 true).1.look 1 "B".toList = some [-1, -1, -1] := by decide

/-- A giving workspace without sample: null pointer. -/
theorem C13_no_sample_counterexample :
    let v := (VWorld.init : VWorld Int).run (-1) [.create true, .setSample 0 smp3, .create false]
    (v.kvMerge (-1) 0 1 true).2 = .ub := by decide

end Iode
