import Verif.Props.C11

/-!
# C12  Changing the sample keeps the values of the periods that stay

Specification: `valueAt` reads a variable at a calendar period (not at a position), so that the statement says nothing
about offsets.
-/
namespace Iode
namespace VWorld
variable {α : Type}

/-- The value of a variable at a calendar period; nothing outside the sample. -/
def valueAt (v : VWorld α) (i : Nat) (name : Name) (q : Period) : Option α :=
  match v.smp i with
  | none => none
  | some s =>
    match s.position q with
    | .ok t => (v.look i name).bind (fun x => x[t.toNat]?)
    | _ => none

theorem position_bounds {s : Sample} {q : Period} {t : Int} (h : s.position q = .ok t) : 0 ≤ t ∧ t < s.nb := by
  unfold Sample.position at h
  cases hd : q.difference s.start with
  | ok d =>
    rw [hd, Res.bind_ok] at h
    split at h
    · cases h
    · cases h; omega
  | err => rw [hd] at h; cases h
  | ub => rw [hd] at h; cases h

theorem position_of_contains {s : Sample} (hs : s.Fair) {q : Period} (hq : s.Contains q) : ∃ t, s.position q = .ok t := by
  have hb := hs.built
  obtain ⟨n, hsp, hn, -⟩ := hs
  obtain ⟨hwf, hper, nb, hnb, h1, h2⟩ := hq
  refine ⟨_, (C03_position_iff s.start s.stop n hsp hn q hwf s hb _).2 ⟨⟨hwf, hper, nb, hnb, h1, h2⟩,
    Period.difference_spec (by rw [hper]; exact hnb) hper⟩⟩

theorem look_length {v : VWorld α} (h : Inv v) {i : Nat} {name : Name} {x : List α} (hx : v.look i name = some x) :
    (x.length : Int) = v.nb i := by
  unfold VWorld.look World.look at hx
  cases hp : (v.w.dbs i).getObjPtr ty name with
  | none => rw [hp] at hx; cases hx
  | some a =>
    rw [hp] at hx
    obtain ⟨k, hk⟩ := World.getObjPtr_some hp
    cases hx
    exact h.len i k a hk

theorem valueAt_in {v : VWorld α} {i : Nat} {name : Name} {s : Sample} {q : Period} {t : Int} {x : List α}
    (hs : v.smp i = some s) (hq : s.position q = .ok t) (hx : v.look i name = some x) :
    v.valueAt i name q = x[t.toNat]? := by
  unfold valueAt; rw [hs]; simp only [hq, hx, Option.bind_some]

theorem valueAt_out {v : VWorld α} {i : Nat} {name : Name} {s : Sample} {q : Period}
    (hs : v.smp i = some s) (hq : s.position q = .err) : v.valueAt i name q = none := by
  unfold valueAt; rw [hs]; simp only [hq]

theorem getElem?_toNat {x : List α} {t : Int} (h0 : 0 ≤ t) (h1 : t < x.length) : ∃ y, x[t.toNat]? = some y :=
  ⟨x[t.toNat]'(by omega), List.getElem?_eq_getElem _⟩

end VWorld
open VWorld

/-- C12. In every state a regular history reaches, for every workspace and every sample of at most 32767 periods:
    a call that fails changes nothing; a call that succeeds installs the sample, keeps the names, and shows at every
    period of the new sample the old value if the period was in the old sample, NA otherwise. Workspaces of other
    families are unchanged. Missing for the full claim: irregular histories (C11) and longer samples. -/
theorem C12_set_sample_partial {α : Type} (na : α) (ops : List (VOp α)) (hr : Regular na VWorld.init ops)
    (i : Nat) (s : Sample) (hs : s.Fair) :
    let v := (VWorld.init : VWorld α).run na ops
    let v' := (v.setSample na i s).1
    let r := (v.setSample na i s).2
    (r ≠ .ok true → r = .err ∧ v' = v) ∧
    (r = .ok true → v'.smp i = some s ∧
      (∀ name, v'.look i name = none ↔ v.look i name = none) ∧
      (∀ name q, v.look i name ≠ none → s.Contains q → v'.valueAt i name q = some ((v.valueAt i name q).getD na)) ∧
      (∀ j, j ≠ i → j ∉ (v.w.dbs i).children → v'.smp j = v.smp j ∧ ∀ name, v'.look j name = v.look j name)) := by
  have h := Inv.run ops (Inv.init (α := α)) hr
  simp only
  generalize (VWorld.init : VWorld α).run na ops = v at *
  rcases setSample_cases (na := na) (i := i) h hs with ⟨hsm, he⟩ | ⟨-, -, he⟩ | ⟨-, -, old, -, -, he⟩ |
    ⟨-, hk, d1, d2, n, f, hov, he, g1, g2, g3, g4, g5, hf1, hf2⟩
  · rw [he]
    refine ⟨fun hc => absurd rfl hc, fun _ => ⟨hsm, fun _ => Iff.rfl, ?_, fun _ _ _ => ⟨rfl, fun _ => rfl⟩⟩⟩
    intro name q hn hq
    obtain ⟨t, ht⟩ := position_of_contains hs hq
    cases hx : v.look i name with
    | none => exact absurd hx hn
    | some x =>
      have hl := look_length h hx
      obtain ⟨b0, b1⟩ := position_bounds ht
      obtain ⟨y, hy⟩ := getElem?_toNat (x := x) b0 (by rw [hl]; simpa [nb, hsm] using b1)
      rw [valueAt_in hsm ht hx, hy]; rfl
  · rw [he]; exact ⟨fun _ => ⟨rfl, rfl⟩, fun hc => by cases hc⟩
  · rw [he]; exact ⟨fun _ => ⟨rfl, rfl⟩, fun hc => by cases hc⟩
  · rw [he]
    refine ⟨fun hc => absurd rfl hc, fun _ => ⟨by simp, ?_, ?_, ?_⟩⟩
    · intro name
      simp only [VWorld.look, World.look, Option.map_eq_none_iff]
    · intro name q hn hq
      obtain ⟨t, ht⟩ := position_of_contains hs hq
      obtain ⟨b0, b1⟩ := position_bounds ht
      cases hp : (v.w.dbs i).getObjPtr ty name with
      | none => exact absurd (by simp [VWorld.look, World.look, hp]) hn
      | some a =>
        obtain ⟨k, hk'⟩ := World.getObjPtr_some hp
        have hx : v.look i name = some (v.w.heap a) := by simp [VWorld.look, World.look, hp]
        have hl := h.len i k a hk'
        obtain ⟨x, hxr, hxl, hxv⟩ := resized_spec (na := na) (old := v.w.heap a) (nb := s.nb)
          (Int.le_of_lt hs.nb_pos) g1 g2 (by rw [hl]; exact g4) g5 g3
        rw [hf1 k a hk'] at hxr
        cases hxr
        rw [valueAt_in (s := s) (x := f a) (t := t) (by simp) ht (by simp [VWorld.look, World.look, hp])]
        rw [hxv t.toNat (by omega)]
        have htt : ((t.toNat : Nat) : Int) = t := Int.toNat_of_nonneg b0
        rw [htt]
        cases hsm : v.smp i with
        | none =>
          rw [hsm] at hov
          simp only [copyBounds, Res.ok.injEq, Prod.mk.injEq] at hov
          rw [if_neg (by omega)]
          simp [valueAt, hsm]
        | some old =>
          rw [hsm] at hov
          obtain ⟨-, -, -, -, -, o1, o2, -, -⟩ := overlap_ok (h.fair i old hsm) hs hov
          split
          · rename_i hc
            have hpo := o1 q t ht hc.1 hc.2
            rw [valueAt_in hsm hpo hx]
            obtain ⟨c0, c1⟩ := position_bounds hpo
            obtain ⟨y, hy⟩ := getElem?_toNat (x := v.w.heap a) c0 (by rw [hl]; simpa [nb, hsm] using c1)
            rw [hy]; rfl
          · rename_i hc
            rw [valueAt_out hsm (o2 q t ht hc)]; rfl
    · intro j hji hjc
      refine ⟨if_neg (by rintro (h' | h'); exact hji h'; exact hjc h'), ?_⟩
      intro name
      simp only [VWorld.look, World.look]
      cases hp : (v.w.dbs j).getObjPtr ty name with
      | none => rfl
      | some a =>
        obtain ⟨k, hk'⟩ := World.getObjPtr_some hp
        simp only [Option.map_some]
        rw [hf2 a]
        intro k' hka
        have hw := h.base.good.wf
        have hroot := hw.sep i j k' k a hka hk'
        rw [World.rootOf_of_ne hk] at hroot
        by_cases hjs : (v.w.dbs j).kind = .subset
        · exact hjc (by rw [hroot]; exact h.base.reg j hjs)
        · rw [World.rootOf_of_ne hjs] at hroot
          exact hji hroot.symm

/-- C12. `set_sample` succeeds exactly when the sample is already the current one, or the workspace is not a subset and
    has no sample or one with a common period. -/
theorem C12_when_partial {α : Type} (na : α) (ops : List (VOp α)) (hr : Regular na VWorld.init ops)
    (i : Nat) (s : Sample) (hs : s.Fair) :
    let v := (VWorld.init : VWorld α).run na ops
    (v.setSample na i s).2 = .ok true ↔
      (v.smp i = some s ∨ ((v.w.dbs i).kind ≠ .subset ∧
        ∀ old, v.smp i = some old → ∃ q, old.Contains q ∧ s.Contains q)) := by
  have h := Inv.run ops (Inv.init (α := α)) hr
  simp only
  generalize (VWorld.init : VWorld α).run na ops = v at *
  rcases setSample_cases (na := na) (i := i) h hs with ⟨hsm, he⟩ | ⟨hsm, hk, he⟩ | ⟨hsm, hk, old, hold, hov, he⟩ |
    ⟨hsm, hk, d1, d2, n, f, hov, he, -⟩
  · rw [he]; simp [hsm]
  · rw [he]; simp [hsm, hk]
  · rw [he]
    constructor
    · intro hc; cases hc
    · rintro (hc | ⟨-, hc⟩)
      · exact absurd hc hsm
      · exact absurd (hc old hold) ((overlap_err_iff (h.fair i old hold) hs).1 hov)
  · rw [he]
    refine ⟨fun _ => Or.inr ⟨hk, ?_⟩, fun _ => rfl⟩
    intro old hold
    rw [hold] at hov
    apply Classical.byContradiction
    intro hc
    rw [show copyBounds (some old) s = overlap old s from rfl, (overlap_err_iff (h.fair i old hold) hs).2 hc] at hov
    cases hov

/-- A concrete state and samples that overlap partly. -/
example :
    let v := (VWorld.init : VWorld Int).run (-1) [.create true, .setSample 0 smp3, .set 0 "A".toList [1, 2, 3]]
    (v.setSample (-1) 0 smp4).2 = .ok true ∧ (v.setSample (-1) 0 smp4).1.look 0 "A".toList = some [2, 3, -1, -1] ∧
    (v.setSample (-1) 0 smp4).1.valueAt 0 "A".toList ⟨2002, 1, 'Y'⟩ = some 3 ∧
    (v.setSample (-1) 0 ⟨⟨2010, 1, 'Y'⟩, ⟨2011, 1, 'Y'⟩, 2⟩).2 = .err := by decide

end Iode
