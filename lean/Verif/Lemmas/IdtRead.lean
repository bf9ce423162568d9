import Verif.Lemmas.IdtRun
import Verif.Props.C01

/-!
# Reading the variables that identities need
-/
namespace Iode.Idt

open Iode.Lec

variable {F : Type}

/-- `y` has the values of `x` (sample `ts`) at the periods of the sample `vs`, missing values at other periods. -/
def Image (na : F) (vs ts : Sample) (x y : List F) : Prop :=
  y.length = vs.nb.toNat ∧ ∀ q t, vs.position q = .ok t →
    y[t.toNat]? = some (match ts.position q with
      | .ok u => x.getD u.toNat na
      | _ => na)

/-- Every position has a period. -/
theorem position_exists {s : Sample} (hs : s.Fair) {t : Nat} (ht : t < s.nb) : ∃ q, s.position q = .ok t := by
  obtain ⟨q, _, _, _, hd, _⟩ := C01_shift_distance s.start hs.proper.wfs t
  refine ⟨q, ?_⟩
  unfold Sample.position
  rw [hd, Res.bind_ok, if_neg (by omega)]

theorem position_ok {s : Sample} {q : Period} {t : Int} (h : s.position q = .ok t) : 0 ≤ t ∧ t < s.nb := by
  unfold Sample.position at h
  cases hd : q.difference s.start with
  | ok d =>
    rw [hd, Res.bind_ok] at h
    split at h
    · cases h
    · cases h; omega
  | err => rw [hd] at h; cases h
  | ub => rw [hd] at h; cases h

theorem Image.self {na : F} {s : Sample} (hs : s.Fair) {x y : List F} (h : Image na s s x y) (hx : x.length = s.nb.toNat) : y = x := by
  refine List.ext_getElem? fun t => ?_
  by_cases ht : t < s.nb.toNat
  · obtain ⟨q, hq⟩ := position_exists hs (t := t) (by omega)
    have h1 := h.2 q t hq
    rw [hq] at h1
    simp only [Int.toNat_natCast] at h1
    rw [h1, List.getD_eq_getElem?_getD, List.getElem?_eq_getElem (by omega)]
    rfl
  · rw [List.getElem?_eq_none (by have := h.1; omega), List.getElem?_eq_none (by omega)]

/-- The copy in `KI_read_vars_db` and `set_sample`. -/
theorem resized_image {na : F} {vs ts : Sample} (hv : vs.Fair) (ht : ts.Fair) {d1 d2 n : Int}
    (ho : VWorld.overlap vs ts = .ok (d1, d2, n)) {x : List F} (hx : x.length = ts.nb.toNat) :
    ∃ y, VWorld.resized na x vs.nb d2 d1 n = .ok y ∧ Image na vs ts x y := by
  obtain ⟨h1, h2, h3, h4, h5, _, _, h6, h7⟩ := VWorld.overlap_ok hv ht ho
  have hnb := hv.nb_pos
  have htb := ht.nb_pos
  obtain ⟨y, e1, e2, e3⟩ := VWorld.copyLoop_spec x n.toNat (List.replicate vs.nb.toNat na) d1.toNat d2.toNat (by omega) (by simp; omega)
  refine ⟨y, ?_, ?_, ?_⟩
  · unfold VWorld.resized
    rw [if_neg (by omega), if_neg (by omega)]
    exact e1
  · simpa using e2
  · intro q t hq
    obtain ⟨t0, t1⟩ := position_ok hq
    rw [e3]
    by_cases hin : d1 ≤ t ∧ t < d1 + n
    · rw [if_pos (by omega), h6 q t hq hin.1 hin.2]
      simp only
      rw [show d2.toNat + (t.toNat - d1.toNat) = (t - d1 + d2).toNat by omega, List.getD_eq_getElem?_getD,
        List.getElem?_eq_getElem (by omega)]
      rfl
    · rw [if_neg (by omega), h7 q t hq hin]
      rw [List.getElem?_replicate, if_pos (by omega)]

/-- A source as databases are: fair sample, all series have its length. -/
def Regular (s : VarDb F) : Prop :=
  ∀ ts, s.smpl = some ts → ts.Fair ∧ ∀ k x, s.vars.find k = some x → x.length = ts.nb.toNat

/-- The first source that has a series. -/
def firstSource (srcs : List (Option (VarDb F))) (k : Name) : Option (VarDb F) :=
  srcs.findSome? fun s => s.bind fun d => if d.vars.has k then some d else none

/-- What reading has done so far: `seen` are the sources read. -/
structure LInv (na : F) (vs : Sample) (keys : List Name) (seen : List (Option (VarDb F))) (ld : Loading F) : Prop where
  names : ld.vars.keys = keys
  sorted : SMap.Sorted ld.vars
  sub : ∀ k ∈ ld.loaded, k ∈ keys
  nodup : ld.loaded.Nodup
  yes : ∀ k ∈ ld.loaded, ∃ src ts x y, firstSource seen k = some src ∧ src.smpl = some ts ∧ src.vars.find k = some x ∧
    ld.vars.find k = some y ∧ Image na vs ts x y
  no : ∀ k ∈ keys, k ∉ ld.loaded → firstSource seen k = none ∧ ld.vars.find k = some (List.replicate vs.nb.toNat na)

theorem firstSource_append_some {seen rest : List (Option (VarDb F))} {k : Name} {src : VarDb F} (h : firstSource seen k = some src) :
    firstSource (seen ++ rest) k = some src := by
  unfold firstSource at h ⊢
  rw [List.findSome?_append, h]; rfl

theorem firstSource_append_none {seen rest : List (Option (VarDb F))} {k : Name} (h : firstSource seen k = none) :
    firstSource (seen ++ rest) k = firstSource rest k := by
  unfold firstSource at h ⊢
  rw [List.findSome?_append, h]; rfl

theorem firstSource_one {src : VarDb F} {k : Name} :
    firstSource [some src] k = if src.vars.has k then some src else none := by
  unfold firstSource
  simp only [List.findSome?_cons, Option.bind_some]
  cases src.vars.has k <;> simp

/-- Reading the names `ks` of one source; `todo` is what remains of the source. -/
theorem readNames_spec {na : F} {vs ts : Sample} (hv : vs.Fair) (ht : ts.Fair) {d1 d2 n : Int}
    (ho : VWorld.overlap vs ts = .ok (d1, d2, n)) {src : VarDb F} (hsm : src.smpl = some ts)
    (hlen : ∀ k x, src.vars.find k = some x → x.length = ts.nb.toNat) {keys : List Name} :
    ∀ (ks : List Name) (ld ld' : Loading F), ks.Nodup → (∀ k ∈ ks, k ∈ keys ∧ k ∉ ld.loaded ∧ src.vars.has k = true) →
    ld.vars.keys = keys → SMap.Sorted ld.vars → (∀ k ∈ ld.loaded, k ∈ keys) → ld.loaded.Nodup →
    readNames na vs.nb d1 d2 n src.vars ks ld = .ok ld' →
    ld'.vars.keys = keys ∧ SMap.Sorted ld'.vars ∧ (∀ k ∈ ld'.loaded, k ∈ keys) ∧ ld'.loaded.Nodup ∧
    (∀ k, k ∈ ld'.loaded ↔ k ∈ ks ∨ k ∈ ld.loaded) ∧
    (∀ k, k ∉ ks → ld'.vars.find k = ld.vars.find k) ∧
    (∀ k ∈ ks, ∃ x y, src.vars.find k = some x ∧ ld'.vars.find k = some y ∧ Image na vs ts x y)
  | [], ld, ld', _, _, h1, h2, h3, h4, h => by
    cases h
    exact ⟨h1, h2, h3, h4, by simp, fun _ _ => rfl, by simp⟩
  | k :: ks, ld, ld', hnd, hk, h1, h2, h3, h4, h => by
    obtain ⟨hk1, hk2, hk3⟩ := hk k (by simp)
    obtain ⟨x, hx⟩ := (SMap.has_iff _ _).1 hk3
    unfold readNames at h
    rw [hx] at h
    obtain ⟨y, hy, hI⟩ := resized_image (na := na) hv ht ho (hlen k x hx)
    simp only [hy, Res.bindOk] at h
    rw [List.nodup_cons] at hnd
    obtain ⟨g1, g2, g3, g4, g5, g6, g7⟩ := readNames_spec hv ht ho hsm hlen ks ⟨ld.vars.insert k y, k :: ld.loaded⟩ ld' hnd.2
      (fun j hj => by
        obtain ⟨a, b, c⟩ := hk j (by simp [hj])
        exact ⟨a, by simp only [List.mem_cons, not_or]; exact ⟨fun he => hnd.1 (he ▸ hj), b⟩, c⟩)
      (by rw [keys_insert h2 (by rw [h1]; exact hk1)]; exact h1) (SMap.sorted_insert _ _ _ h2)
      (fun j hj => by
        rcases List.mem_cons.1 hj with rfl | hj
        · exact hk1
        · exact h3 j hj)
      (List.nodup_cons.2 ⟨hk2, h4⟩) h
    refine ⟨g1, g2, g3, g4, ?_, ?_, ?_⟩
    · intro j
      rw [g5 j]
      simp only [List.mem_cons]
      constructor
      · rintro (h | h | h)
        · exact Or.inl (Or.inr h)
        · exact Or.inl (Or.inl h)
        · exact Or.inr h
      · rintro ((h | h) | h)
        · exact Or.inr (Or.inl h)
        · exact Or.inl h
        · exact Or.inr (Or.inr h)
    · intro j hj
      simp only [List.mem_cons, not_or] at hj
      rw [g6 j hj.2]
      exact SMap.find_insert_ne _ _ hj.1
    · intro j hj
      rcases List.mem_cons.1 hj with rfl | hj
      · exact ⟨x, y, hx, by rw [g6 j hnd.1, SMap.find_insert_self], hI⟩
      · exact g7 j hj

theorem readDb_spec {na : F} {vs : Sample} (hv : vs.Fair) {src : VarDb F} (hr : Regular src) {keys : List Name}
    {seen : List (Option (VarDb F))} {ld ld' : Loading F} (hi : LInv na vs keys seen ld) (h : readDb na vs src ld = .ok ld') :
    LInv na vs keys (seen ++ [some src]) ld' := by
  have hknd : ld.vars.keys.Nodup := sorted_nodup hi.sorted
  unfold readDb at h
  split at h
  · next hnil =>
    cases h
    have hno : ∀ k ∈ keys, k ∉ ld.loaded → src.vars.has k = false := by
      intro k hk hl
      rw [← hi.names] at hk
      have := List.filter_eq_nil_iff.1 hnil k hk
      simpa [hl] using this
    refine ⟨hi.names, hi.sorted, hi.sub, hi.nodup, ?_, ?_⟩
    · intro k hk
      obtain ⟨s, ts, x, y, a, b⟩ := hi.yes k hk
      exact ⟨s, ts, x, y, firstSource_append_some a, b⟩
    · intro k hk hl
      obtain ⟨a, b⟩ := hi.no k hk hl
      refine ⟨?_, b⟩
      rw [firstSource_append_none a, firstSource_one, hno k hk hl]
      rfl
  · next k0 ks hcons =>
    split at h
    · cases h
    · next ts hts =>
      obtain ⟨hf, hlen⟩ := hr ts hts
      split at h
      · cases h
      · cases h
      · next d1 d2 n ho =>
        split at h
        · cases h
        · have hmem : ∀ k, k ∈ k0 :: ks ↔ k ∈ keys ∧ k ∉ ld.loaded ∧ src.vars.has k = true := by
            intro k
            rw [← hcons, List.mem_filter, hi.names]
            simp
          obtain ⟨g1, g2, g3, g4, g5, g6, g7⟩ := readNames_spec hv hf ho hts hlen (k0 :: ks) ld ld'
            (by rw [← hcons]; exact hknd.filter _) (fun k hk => (hmem k).1 hk) hi.names hi.sorted hi.sub hi.nodup h
          refine ⟨g1, g2, g3, g4, ?_, ?_⟩
          · intro k hk
            by_cases hks : k ∈ k0 :: ks
            · obtain ⟨m1, m2, m3⟩ := (hmem k).1 hks
              obtain ⟨x, y, e1, e2, e3⟩ := g7 k hks
              refine ⟨src, ts, x, y, ?_, hts, e1, e2, e3⟩
              rw [firstSource_append_none (hi.no k m1 m2).1, firstSource_one, m3]
              rfl
            · have hk' := ((g5 k).1 hk).resolve_left hks
              obtain ⟨s, ts, x, y, a, b, c, d, e⟩ := hi.yes k hk'
              exact ⟨s, ts, x, y, firstSource_append_some a, b, c, by rw [g6 k hks]; exact d, e⟩
          · intro k hk hl
            have hks : k ∉ k0 :: ks := fun hm => hl ((g5 k).2 (Or.inl hm))
            have hl' : k ∉ ld.loaded := fun hm => hl ((g5 k).2 (Or.inr hm))
            obtain ⟨a, b⟩ := hi.no k hk hl'
            refine ⟨?_, by rw [g6 k hks]; exact b⟩
            rw [firstSource_append_none a, firstSource_one]
            have : src.vars.has k = false := by
              cases hh : src.vars.has k with
              | false => rfl
              | true => exact absurd ((hmem k).2 ⟨hk, hl', hh⟩) hks
            rw [this]; rfl

theorem LInv.all_loaded {na : F} {vs : Sample} {keys : List Name} {seen : List (Option (VarDb F))} {ld : Loading F}
    (h : LInv na vs keys seen ld) (hl : ld.vars.length ≤ ld.loaded.length) : ∀ k ∈ keys, k ∈ ld.loaded := by
  have hk : keys.length ≤ ld.loaded.length := by rw [← h.names]; simpa [SMap.keys] using hl
  have hp := (List.subperm_of_subset h.nodup h.sub).perm_of_length_le hk
  exact fun k hk => hp.mem_iff.2 hk

theorem readSources_spec {na : F} {vs : Sample} (hv : vs.Fair) {keys : List Name} :
    ∀ (srcs : List (Option (VarDb F))) (seen : List (Option (VarDb F))) (ld ld' : Loading F),
    (∀ s, some s ∈ srcs → Regular s) → LInv na vs keys seen ld → readSources na vs srcs ld = .ok ld' →
    LInv na vs keys (seen ++ srcs) ld'
  | [], seen, ld, ld', _, hi, h => by cases h; simpa using hi
  | s :: ss, seen, ld, ld', hr, hi, h => by
    unfold readSources at h
    by_cases hl : ld.vars.length ≤ ld.loaded.length
    · rw [if_pos hl] at h
      cases h
      have hall := hi.all_loaded hl
      refine ⟨hi.names, hi.sorted, hi.sub, hi.nodup, ?_, fun k hk hn => absurd (hall k hk) hn⟩
      intro k hk
      obtain ⟨s, ts, x, y, a, b⟩ := hi.yes k hk
      exact ⟨s, ts, x, y, firstSource_append_some a, b⟩
    · rw [if_neg hl] at h
      cases s with
      | none => cases h
      | some s =>
        simp only at h
        obtain ⟨ld1, h1, h⟩ := Res.bind_eq_ok' h
        have := readSources_spec hv ss (seen ++ [some s]) ld1 ld' (fun s hs => hr s (by simp [hs]))
          (readDb_spec hv (hr s (by simp)) hi h1) h
        simpa using this

/-- What `KI_series_list` makes. -/
theorem seriesFrom_spec {na : F} {nb : Int} : ∀ (ns : List Name) (m m' : SMap (List F)), SMap.Sorted m →
    (∀ k x, m.find k = some x → x = List.replicate nb.toNat na) → seriesFrom na nb ns m = .ok m' →
    SMap.Sorted m' ∧ (∀ k x, m'.find k = some x → x = List.replicate nb.toNat na) ∧
    ∀ k, k ∈ m'.keys ↔ k ∈ m.keys ∨ ∃ n ∈ ns, toKey .variables n = k
  | [], m, m', hs, hm, h => by cases h; exact ⟨hs, hm, by simp⟩
  | n :: ns, m, m', hs, hm, h => by
    unfold seriesFrom at h
    split at h
    · cases h
    · obtain ⟨g1, g2, g3⟩ := seriesFrom_spec ns _ m' (SMap.sorted_insert _ _ _ hs) (by
        intro k x hk
        rw [SMap.find_insert] at hk
        split at hk
        · cases hk; rfl
        · exact hm k x hk) h
      refine ⟨g1, g2, fun k => ?_⟩
      rw [g3 k, SMap.mem_insert_keys]
      simp only [List.mem_cons, exists_eq_or_imp]
      constructor
      · rintro ((h | h) | h)
        · exact Or.inr (Or.inl h.symm)
        · exact Or.inl h
        · exact Or.inr (Or.inr h)
      · rintro (h | h | h)
        · exact Or.inl (Or.inr h)
        · exact Or.inl (Or.inl h.symm)
        · exact Or.inr h

theorem find_map_vals {V W : Type} {g : Name × V → W} (k : Name) : ∀ (m : SMap V),
    SMap.find k (m.map fun e => (e.1, g e)) = (m.find k).map fun v => g (k, v)
  | [] => rfl
  | (k', v) :: m => by
    simp only [List.map_cons, SMap.find]
    by_cases h : k = k'
    · subst h; simp
    · simp [h, find_map_vals k m]

/-- The values the identities are computed from: each series is that of the first source that has it; one that is in no
source is the series of an identity and has missing values. -/
theorem readVars_spec {na : F} {vs : Sample} (hv : vs.Fair) {dbi : Idts} {srcs : List (Option (VarDb F))}
    (hr : ∀ s, some s ∈ srcs → Regular s) {vars vars' : SMap (List F)} (hs : SMap.Sorted vars)
    (hna : ∀ k x, vars.find k = some x → x = List.replicate vs.nb.toNat na) (h : readVars na vs dbi srcs vars = .ok vars') :
    vars'.keys = vars.keys ∧ SMap.Sorted vars' ∧ ∀ k ∈ vars.keys,
      (∃ src ts x y, firstSource srcs k = some src ∧ src.smpl = some ts ∧ src.vars.find k = some x ∧ vars'.find k = some y ∧
        Image na vs ts x y) ∨
      (firstSource srcs k = none ∧ dbi.has (toKey .identities k) = true ∧ vars'.find k = some (List.replicate vs.nb.toNat na)) := by
  unfold readVars at h
  obtain ⟨ld, h1, h⟩ := Res.bind_eq_ok' h
  have hi0 : LInv na vs vars.keys [] (⟨vars, []⟩ : Loading F) := by
    refine ⟨rfl, hs, by simp, by simp, by simp, fun k hk _ => ⟨rfl, ?_⟩⟩
    obtain ⟨x, hx⟩ := (SMap.mem_keys_iff k _).1 hk
    rw [hx, hna k x hx]
  have hi := readSources_spec hv srcs [] _ ld hr hi0 h1
  rw [List.nil_append] at hi
  split at h
  · next hall =>
    cases h
    have hkeys : SMap.keys (ld.vars.map fun e => (e.1, if e.1 ∈ ld.loaded then e.2 else List.replicate vs.nb.toNat na)) = vars.keys := by
      rw [← hi.names]; simp [SMap.keys, Function.comp_def]
    refine ⟨hkeys, sorted_keys hkeys.symm hs, fun k hk => ?_⟩
    by_cases hl : k ∈ ld.loaded
    · obtain ⟨src, ts, x, y, a, b, c, d, e⟩ := hi.yes k hl
      refine Or.inl ⟨src, ts, x, y, a, b, c, ?_, e⟩
      rw [find_map_vals (g := fun e => if e.1 ∈ ld.loaded then e.2 else List.replicate vs.nb.toNat na), d]
      simp [hl]
    · obtain ⟨a, b⟩ := hi.no k hk hl
      refine Or.inr ⟨a, ?_, ?_⟩
      · have := List.all_eq_true.1 hall k (by rw [hi.names]; exact hk)
        simpa [hl] using this
      · rw [find_map_vals (g := fun e => if e.1 ∈ ld.loaded then e.2 else List.replicate vs.nb.toNat na), b]
        simp [hl]
  · cases h

end Iode.Idt
