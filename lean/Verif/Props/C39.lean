import Verif.Lemmas.IdtRead
import Verif.Lemmas.LecEx

/-!
# C39: executing identities computes their definitions and nothing else

`ReadsItselfBefore` (Verif/Lemmas/IdtRun.lean): the formula of an identity may read the variable it defines at former periods
only (`A = A[-1] + 1`).
-/
namespace Iode.Idt

open Iode.Lec

variable {F : Type}

/-! ## Samples -/

/-- The execution sample lies in the sample of the workspace. -/
theorem checkSample_ok {vs es : Sample} (hv : vs.Fair) (he : es.Fair) (h : checkSample vs es = .ok ()) :
    ∃ d : Int, es.start.difference vs.start = .ok d ∧ 0 ≤ d ∧ d + es.nb ≤ vs.nb ∧
      VWorld.overlap vs es = .ok (d, 0, es.nb) ∧ VWorld.overlap es vs = .ok (0, d, es.nb) := by
  unfold checkSample at h
  obtain ⟨a, h1, h⟩ := Res.bind_eq_ok' h
  split at h
  · cases h
  · next ha =>
    obtain ⟨b, h2, h⟩ := Res.bind_eq_ok' h
    split at h
    · cases h
    · next hb =>
      have hper : es.start.periodicity = vs.start.periodicity := by
        unfold Period.difference at h2
        split at h2
        · cases h2
        · next hp => simpa using hp
      obtain ⟨nb, hnb, -, -⟩ := hv.proper.wfs
      have hnb2 : nbPeriodsPerYear es.start.periodicity = .ok nb := by rw [hper]; exact hnb
      have sv := hv.span hnb
      have se := he.span hnb2
      have hps : vs.stop.periodicity = es.stop.periodicity := by
        rw [hv.proper.same, he.proper.same, hper]
      rw [Period.difference_spec (by rw [hv.proper.same]; exact hnb) hps] at h1
      rw [Period.difference_spec hnb2 hper] at h2
      cases h1
      cases h2
      have hp1 := hv.nb_pos
      have hp2 := he.nb_pos
      change ¬ (vs.stop.ord nb - es.stop.ord nb < 0) at ha
      change ¬ (es.start.ord nb - vs.start.ord nb < 0) at hb
      refine ⟨es.start.ord nb - vs.start.ord nb, Period.difference_spec hnb2 hper, by omega, by omega, ?_, ?_⟩
      · rw [VWorld.overlap_eq hv he hper.symm hnb, if_neg (by omega)]
        congr 2
        · omega
        · congr 1 <;> omega
      · rw [VWorld.overlap_eq he hv hper hnb2, if_neg (by omega)]
        congr 2
        · omega
        · congr 1 <;> omega

/-! ## Back to the workspace -/

theorem go_spec {na : F} {nb d1 d2 n : Int} : ∀ (m r : SMap (List F)), resizeAll.go na nb d1 d2 n m = .ok r →
    r.keys = m.keys ∧ ∀ k x, m.find k = some x → ∃ y, r.find k = some y ∧ VWorld.resized na x nb d1 d2 n = .ok y
  | [], r, h => by cases h; exact ⟨rfl, by simp⟩
  | (k0, x0) :: m, r, h => by
    unfold resizeAll.go at h
    obtain ⟨y0, h1, h⟩ := Res.bind_eq_ok' h
    obtain ⟨r1, h2, h⟩ := Res.bind_eq_ok' h
    cases h
    obtain ⟨g1, g2⟩ := go_spec m r1 h2
    refine ⟨by simpa [SMap.keys] using g1, fun k x hk => ?_⟩
    unfold SMap.find at hk ⊢
    by_cases he : k = k0
    · subst he
      rw [if_pos rfl] at hk ⊢
      cases hk
      exact ⟨y0, rfl, h1⟩
    · rw [if_neg he] at hk ⊢
      exact g2 k x hk

/-- `set_sample` to a part of the sample: the values of this part. -/
theorem shrink_spec {na : F} {vs es : Sample} (hv : vs.Fair) (he : es.Fair) {d : Int} (h0 : 0 ≤ d) (h1 : d + es.nb ≤ vs.nb)
    (ho : VWorld.overlap vs es = .ok (d, 0, es.nb)) {m r : SMap (List F)} (hm : ∀ k x, m.find k = some x → x.length = vs.nb.toNat)
    (h : resizeAll na vs es m = .ok r) :
    r.keys = m.keys ∧ ∀ k x, m.find k = some x → ∃ y, r.find k = some y ∧ y.length = es.nb.toNat ∧
      ∀ u : Nat, u < es.nb.toNat → y[u]? = x[d.toNat + u]? := by
  have hp := he.nb_pos
  unfold resizeAll at h
  split at h
  · next heq =>
    cases h
    subst heq
    have : d = 0 := by omega
    subst this
    exact ⟨rfl, fun k x hx => ⟨x, hx, hm k x hx, fun u _ => by simp⟩⟩
  · rw [ho] at h
    simp only at h
    obtain ⟨g1, g2⟩ := go_spec m r h
    refine ⟨g1, fun k x hx => ?_⟩
    obtain ⟨y, e1, e2⟩ := g2 k x hx
    unfold VWorld.resized at e2
    rw [if_neg (by omega), if_neg (by omega)] at e2
    obtain ⟨z, z1, z2, z3⟩ := VWorld.copyLoop_spec x es.nb.toNat (List.replicate es.nb.toNat na) 0 d.toNat (by rw [hm k x hx]; omega) (by simp)
    rw [show (0 : Int).toNat = 0 from rfl, z1] at e2
    cases e2
    refine ⟨y, e1, by simpa using z2, fun u hu => ?_⟩
    rw [z3 u, if_pos (by omega), Nat.sub_zero]

/-- What a series is after the merge: `y` at the periods of the execution sample, elsewhere the former value, missing if there
was no series. -/
def Merged (na : F) (nb d n : Nat) (old : Option (List F)) (y z : List F) : Prop :=
  z.length = nb ∧ ∀ t, t < nb → z[t]? = if d ≤ t ∧ t < d + n then y[t - d]? else some ((old.bind (·[t]?)).getD na)

theorem mergeLoop_spec {na : F} {nb d n : Int} (h0 : 0 ≤ d) (hn : 0 ≤ n) (h1 : d + n ≤ nb) :
    ∀ (es : List (Name × List F)) (m r : SMap (List F)), (es.map Prod.fst).Nodup →
    (∀ e ∈ es, e.2.length = n.toNat) → (∀ k x, m.find k = some x → x.length = nb.toNat) →
    mergeLoop na nb d 0 n es m = .ok r →
    (∀ k, k ∉ es.map Prod.fst → r.find k = m.find k) ∧
    (∀ e ∈ es, ∃ z, r.find e.1 = some z ∧ Merged na nb.toNat d.toNat n.toNat (m.find e.1) e.2 z)
  | [], m, r, _, _, _, h => by cases h; simp
  | (k, y) :: es, m, r, hnd, hy, hm, h => by
    unfold mergeLoop at h
    rw [if_neg (by omega)] at h
    obtain ⟨z, hz, h⟩ := Res.bind_eq_ok' h
    have hlen : ((m.find k).getD (List.replicate nb.toNat na)).length = nb.toNat := by
      cases hk : m.find k with
      | none => simp
      | some x => simpa using hm k x hk
    obtain ⟨z', z1, z2, z3⟩ := VWorld.copyLoop_spec y n.toNat ((m.find k).getD (List.replicate nb.toNat na)) d.toNat 0
      (by rw [hy (k, y) (by simp)]; simp) (by rw [hlen]; omega)
    rw [show (0 : Int).toNat = 0 from rfl, z1] at hz
    obtain rfl : z' = z := Res.ok.inj hz
    simp only [List.map_cons, List.nodup_cons] at hnd
    obtain ⟨g1, g2⟩ := mergeLoop_spec h0 hn h1 es _ r hnd.2 (fun e he => hy e (by simp [he])) (fun k' x hx => by
      rw [SMap.find_insert] at hx
      split at hx
      · cases hx; rw [z2, hlen]
      · exact hm k' x hx) h
    constructor
    · intro k' hk'
      simp only [List.map_cons, List.mem_cons, not_or] at hk'
      rw [g1 k' hk'.2, SMap.find_insert_ne _ _ hk'.1]
    · intro e he
      rcases List.mem_cons.1 he with rfl | he
      · refine ⟨z', by rw [g1 _ hnd.1, SMap.find_insert_self], by rw [z2, hlen], fun t ht => ?_⟩
        rw [z3 t]
        by_cases hin : d.toNat ≤ t ∧ t < d.toNat + n.toNat
        · rw [if_pos hin, if_pos hin, Nat.zero_add]
        · rw [if_neg hin, if_neg hin]
          cases hk : m.find k with
          | none => simp [ht]
          | some x =>
            have := hm k x hk
            simp [this, ht]
      · obtain ⟨z, e1, e2⟩ := g2 e he
        refine ⟨z, e1, ?_⟩
        have hne : e.1 ≠ k := fun heq => hnd.1 (heq ▸ List.mem_map_of_mem he)
        rwa [SMap.find_insert_ne _ _ hne] at e2

theorem mem_of_find {V : Type} {k : Name} {v : V} : ∀ {m : SMap V}, m.find k = some v → (k, v) ∈ m
  | [], h => by cases h
  | (k0, x0) :: m, h => by
    unfold SMap.find at h
    split at h
    · next he => cases h; subst he; simp
    · exact List.mem_cons_of_mem _ (mem_of_find h)

theorem find_of_mem {V : Type} : ∀ {m : SMap V}, SMap.Sorted m → ∀ e ∈ m, m.find e.1 = some e.2
  | [], _, e, he => by cases he
  | (k0, x0) :: m, hs, e, he => by
    unfold SMap.find
    rcases List.mem_cons.1 he with rfl | he
    · simp
    · have hne : e.1 ≠ k0 := by
        intro heq
        have := hs.1 e.1 (List.mem_map_of_mem he)
        rw [heq, SMap.nameLt_irrefl] at this
        cases this
      rw [if_neg hne]
      exact find_of_mem hs.2 e he

theorem mergeDel_spec {na : F} {ws ws' : VarDb F} {vs es : Sample} (hv : vs.Fair) (he : es.Fair) {d : Int} (h0 : 0 ≤ d)
    (h1 : d + es.nb ≤ vs.nb) (ho : VWorld.overlap vs es = .ok (d, 0, es.nb)) (ho' : VWorld.overlap es vs = .ok (0, d, es.nb))
    (hlen : ∀ k x, ws.vars.find k = some x → x.length = vs.nb.toNat) {m : SMap (List F)} (hs : SMap.Sorted m)
    (hm : ∀ k x, m.find k = some x → x.length = es.nb.toNat) (h : mergeDel na ws vs es m = .ok ws') :
    ws'.smpl = ws.smpl ∧ (∀ k, k ∉ m.keys → ws'.vars.find k = ws.vars.find k) ∧
    (∀ k y, m.find k = some y → ∃ z, ws'.vars.find k = some z ∧ Merged na vs.nb.toNat d.toNat es.nb.toNat (ws.vars.find k) y z) := by
  have hp := he.nb_pos
  have hvp := hv.nb_pos
  unfold mergeDel at h
  split at h
  · next hnil =>
    cases h
    subst hnil
    exact ⟨rfl, fun _ _ => rfl, by simp⟩
  · split at h
    · next hempty =>
      obtain ⟨r, h2, h⟩ := Res.bind_eq_ok' h
      cases h
      simp only
      unfold resizeAll at h2
      split at h2
      · next heq =>
        cases h2
        subst heq
        have hd : d = 0 := by omega
        subst hd
        refine ⟨trivial, fun k hk => ?_, fun k y hy => ⟨y, hy, hm k y hy, fun t ht => ?_⟩⟩
        · have hh : SMap.has k m = false := by
            cases hh : SMap.has k m with
            | false => rfl
            | true => exact absurd ((SMap.has_iff_mem _ _).1 hh) hk
          rw [(SMap.has_false_iff k m).1 hh, hempty]; rfl
        · rw [if_pos (by simp; omega)]; simp
      · rw [ho'] at h2
        simp only at h2
        obtain ⟨g1, g2⟩ := go_spec m r h2
        refine ⟨trivial, fun k hk => ?_, fun k y hy => ?_⟩
        · have hh : SMap.has k r = false := by
            cases hh : SMap.has k r with
            | false => rfl
            | true => exact absurd ((SMap.has_iff_mem _ _).1 hh) (by rw [g1]; exact hk)
          rw [(SMap.has_false_iff k r).1 hh, hempty]; rfl
        · obtain ⟨z, e1, e2⟩ := g2 k y hy
          unfold VWorld.resized at e2
          rw [if_neg (by omega), if_neg (by omega)] at e2
          obtain ⟨z', z1, z2, z3⟩ := VWorld.copyLoop_spec y es.nb.toNat (List.replicate vs.nb.toNat na) d.toNat 0
            (by rw [hm k y hy]; omega) (by simp; omega)
          rw [show (0 : Int).toNat = 0 from rfl, z1] at e2
          obtain rfl : z' = z := Res.ok.inj e2
          refine ⟨z', e1, by simpa using z2, fun t ht => ?_⟩
          rw [z3 t, hempty]
          by_cases hin : d.toNat ≤ t ∧ t < d.toNat + es.nb.toNat
          · rw [if_pos hin, if_pos hin, Nat.zero_add]
          · rw [if_neg hin, if_neg hin]
            simp [ht]
    · rw [ho] at h
      simp only at h
      obtain ⟨r, h2, h⟩ := Res.bind_eq_ok' h
      cases h
      obtain ⟨g1, g2⟩ := mergeLoop_spec h0 (by omega) h1 m ws.vars r (sorted_nodup hs)
        (fun e hmem => hm e.1 e.2 (find_of_mem hs e hmem)) hlen h2
      exact ⟨rfl, g1, fun k y hy => g2 (k, y) (mem_of_find hy)⟩

/-! ## Scalars -/

theorem readSclsDb_zero (dbs src : SMap F) : readSclsDb dbs src = 0 := by
  unfold readSclsDb
  rw [List.length_eq_zero_iff, List.filter_eq_nil_iff]
  intro k hk
  rw [(SMap.has_iff_mem _ _).2 hk]
  simp

theorem scalars_keys (dflt : F) : ∀ (ns : List Name) (m : SMap F), (ns.foldl (fun m n => m.insert (toKey .scalars n) dflt) m) = [] →
    ns = []
  | [], _, _ => rfl
  | n :: ns, m, h => by
    exfalso
    have key : ∀ (ns : List Name) (m : SMap F) (k : Name), k ∈ m.keys → k ∈ SMap.keys (ns.foldl (fun m n => m.insert (toKey .scalars n) dflt) m) := by
      intro ns
      induction ns with
      | nil => intro m k hk; exact hk
      | cons n ns ih => intro m k hk; exact ih _ _ ((SMap.mem_insert_keys _ _ _ _).2 (Or.inr hk))
    have := key ns (m.insert (toKey .scalars n) dflt) (toKey .scalars n) ((SMap.mem_insert_keys _ _ _ _).2 (Or.inl rfl))
    rw [List.foldl_cons] at h
    rw [h] at this
    cases this

theorem readScls_ok {dflt : F} {dbi : Idts} {scls dbs : SMap F} (h : readScls (scalarsFrom dflt dbi) scls = .ok dbs) :
    dbs = [] ∧ ∀ e ∈ dbi, ∀ n ∈ mentions e.2.text, isCoef n = false := by
  unfold readScls at h
  rw [readSclsDb_zero] at h
  split at h
  · cases h
  · next hl =>
    cases h
    have hnil : scalarsFrom dflt dbi = [] := List.length_eq_zero_iff.1 (by omega)
    refine ⟨hnil, fun e he n hn => ?_⟩
    have := scalars_keys dflt _ _ hnil
    rw [List.flatMap_eq_nil_iff] at this
    have := List.filter_eq_nil_iff.1 (this e he) n (lnames_mem.2 hn)
    simpa using this

/-- An identity whose formula contains a scalar can not be executed, whatever the workspaces and files contain: no scalar is
ever read. -/
theorem C39_scalars_are_never_read (A : Arith F) (dflt : F) (dbi : Idts) (ws : VarDb F) (vs es : Sample) (srcs : List (Src F))
    (scls : SMap F) {e : Name × Idt} (he : e ∈ dbi) {n : Name} (hn : n ∈ mentions e.2.text) (hc : isCoef n = true) :
    ∀ ws', execute A dflt dbi ws vs es srcs scls ≠ .ok ws' := by
  intro ws' h
  unfold execute at h
  obtain ⟨w, h, _⟩ := Res.bind_eq_ok' h
  unfold execAll at h
  obtain ⟨_, _, h⟩ := Res.bind_eq_ok' h
  split at h
  · cases h
  · split at h
    · cases h
    · obtain ⟨_, _, h⟩ := Res.bind_eq_ok' h
      obtain ⟨_, _, h⟩ := Res.bind_eq_ok' h
      obtain ⟨dbs, h3, _⟩ := Res.bind_eq_ok' h
      have := (readScls_ok h3).2 e he n hn
      rw [hc] at this
      cases this

/-! ## Main theorems -/

/-- The databases the identities were computed with. -/
structure Computed (A : Arith F) (dbi : Idts) (vs es : Sample) (d : Nat) (srcs : List (Option (VarDb F))) (w : Ws F) : Prop where
  start : w.start = vs.start
  nb : w.nb = vs.nb
  noScls : w.scls = []
  sorted : SMap.Sorted w.vars
  /-- the series of the formulas and of the identities -/
  keys : ∀ k, k ∈ w.vars.keys ↔ ∃ e ∈ dbi, e.1 = k ∨ ∃ n ∈ mentions e.2.text, toKey .variables n = k
  /-- outside the execution sample, and for other series everywhere: the values of the first source that has the series,
  missing values for an identity that is in none -/
  read : ∀ k ∈ w.vars.keys, ∃ y, w.vars.find k = some y ∧ y.length = vs.nb.toNat ∧ ∃ z,
    ((∃ src ts x, firstSource srcs k = some src ∧ src.smpl = some ts ∧ src.vars.find k = some x ∧ Image A.na vs ts x z) ∨
      (firstSource srcs k = none ∧ dbi.has k = true ∧ z = List.replicate vs.nb.toNat A.na)) ∧
    (dbi.has k = false → y = z) ∧ ∀ t, (t < d ∨ d + es.nb.toNat ≤ t) → y[t]? = z[t]?
  /-- in the execution sample each identity holds -/
  holds : ∀ e ∈ dbi, ReadsItselfBefore A e.2 e.1 → ∀ t, d ≤ t → t < d + es.nb.toNat →
    ∃ y v, w.vars.find e.1 = some y ∧ y[t]? = some v ∧ runText A w e.2.ops e.2.text t = .ok v

theorem execAll_spec {A : Arith F} {dflt : F} {dbi : Idts} (hst : Stored dbi) (hlex : ∀ e ∈ dbi, Lexed e.2.text) {vs es : Sample}
    (hv : vs.Fair) (he : es.Fair) {srcs : List (Option (VarDb F))} (hr : ∀ s, some s ∈ srcs → Regular s) {scls : SMap F} {w : Ws F}
    (h : execAll A dflt dbi vs es srcs scls = .ok w) :
    (∀ e ∈ dbi, ∀ n ∈ mentions e.2.text, isCoef n = false) ∧
    ∃ d : Int, es.start.difference vs.start = .ok d ∧ 0 ≤ d ∧ d + es.nb ≤ vs.nb ∧
      VWorld.overlap vs es = .ok (d, 0, es.nb) ∧ VWorld.overlap es vs = .ok (0, d, es.nb) ∧
      Computed A dbi vs es d.toNat srcs w := by
  unfold execAll at h
  obtain ⟨_, hc, h⟩ := Res.bind_eq_ok' h
  obtain ⟨d, hd, d0, d1, ho, ho'⟩ := checkSample_ok hv he hc
  split at h
  · cases h
  split at h
  · cases h
  next order hord =>
  obtain ⟨vars, h1, h⟩ := Res.bind_eq_ok' h
  obtain ⟨vars', h2, h⟩ := Res.bind_eq_ok' h
  obtain ⟨dbs, h3, h⟩ := Res.bind_eq_ok' h
  rw [hd] at h
  simp only [Res.bindOk] at h
  rw [if_neg (by omega)] at h
  obtain ⟨hdbs, hno⟩ := readScls_ok h3
  subst hdbs
  obtain ⟨s1, s2, s3⟩ := seriesFrom_spec (seriesNames dbi) [] vars trivial (by simp) h1
  obtain ⟨r1, r2, r3⟩ := readVars_spec hv hr s1 s2 h2
  have hvo := C38_order_is_valid hst hord
  have hn := he.nb_pos
  obtain ⟨k1, k2, k3, k4⟩ := runAll_spec (start := d.toNat) hst hlex (by omega : 0 < es.nb.toNat) hvo order [] ⟨vs.start, vs.nb, vars', []⟩ w rfl r2
    (by simp) (by rw [Int.toNat_of_nonneg d0]; exact h)
  refine ⟨hno, d, hd, d0, d1, ho, ho', ⟨k1.start.symm, k1.nb.symm, k1.scls.symm, sorted_keys k1.keys r2, ?_, ?_, ?_⟩⟩
  · intro k
    rw [← k1.keys]
    show k ∈ SMap.keys vars' ↔ _
    rw [r1, s3]
    simp only [SMap.keys, List.map_nil, List.not_mem_nil, false_or, seriesNames, List.mem_flatMap]
    constructor
    · rintro ⟨n, ⟨e, hm, hn⟩, hk⟩
      refine ⟨e, hm, ?_⟩
      rcases List.mem_cons.1 hn with rfl | hn
      · exact Or.inl (by rw [← hk]; exact (hst.keys e hm).symm)
      · exact Or.inr ⟨n, lnames_mem.1 (List.mem_filter.1 hn).1, hk⟩
    · rintro ⟨e, hm, rfl | ⟨n, hn, hk⟩⟩
      · exact ⟨e.1, ⟨e, hm, by simp⟩, hst.keys e hm⟩
      · exact ⟨n, ⟨e, hm, List.mem_cons_of_mem _ (List.mem_filter.2 ⟨lnames_mem.2 hn, by simp [hno e hm n hn]⟩)⟩, hk⟩
  · intro k hk
    rw [← k1.keys] at hk
    have hk' : k ∈ vars.keys := by rw [← r1]; exact hk
    have hkey : toKey .identities k = k := by
      rw [s3] at hk'
      rcases hk' with hk' | ⟨n, _, rfl⟩
      · cases hk'
      · exact toKey_idem .variables n
    rcases r3 k hk' with ⟨src, ts, x, z, a1, a2, a3, a4, a5⟩ | ⟨a1, a2, a3⟩
    · obtain ⟨y, y1, y2, y3⟩ := k4 k z a4
      refine ⟨y, y1, by rw [y2]; exact a5.1, z, Or.inl ⟨src, ts, x, a1, a2, a3, a5⟩, fun hh => ?_, y3⟩
      have := k3 k hh
      rw [y1] at this
      exact Option.some.inj (this.trans a4)
    · obtain ⟨y, y1, y2, y3⟩ := k4 k _ a3
      rw [hkey] at a2
      refine ⟨y, y1, by rw [y2]; simp, _, Or.inr ⟨a1, a2, rfl⟩, fun hh => ?_, y3⟩
      rw [a2] at hh
      cases hh
  · intro e hm hself t h1 h2
    obtain ⟨i, hi⟩ := List.mem_iff_getElem?.1 hm
    have hio : i ∈ order := hvo.perm.mem_iff.2 (List.mem_range.2 (List.getElem?_eq_some_iff.1 hi).1)
    exact k2 i hio e.1 e.2 hi hself t h1 h2

theorem find_filter_key {V : Type} {p : Name → Bool} (k : Name) : ∀ (m : SMap V),
    SMap.find k (m.filter fun e => p e.1) = if p k then m.find k else none
  | [] => by simp [SMap.find]
  | (k', v) :: m => by
    have ih := find_filter_key (p := p) k m
    by_cases hp : p k' = true
    · rw [List.filter_cons_of_pos (by simpa using hp)]
      simp only [SMap.find]
      by_cases h : k = k'
      · subst h; simp [hp]
      · simp [h, ih]
    · rw [List.filter_cons_of_neg (by simpa using hp), ih]
      by_cases h : k = k'
      · subst h; simp [hp]
      · simp [SMap.find, h]

theorem sorted_filter {V : Type} {p : Name × V → Bool} : ∀ {m : SMap V}, SMap.Sorted m → SMap.Sorted (m.filter p)
  | [], _ => trivial
  | e :: m, hs => by
    by_cases hp : p e = true
    · rw [List.filter_cons_of_pos hp]
      refine ⟨fun k hk => hs.1 k ?_, sorted_filter hs.2⟩
      obtain ⟨x, hx, rfl⟩ := List.mem_map.1 hk
      exact List.mem_map_of_mem (List.mem_of_mem_filter hx)
    · rw [List.filter_cons_of_neg hp]
      exact sorted_filter hs.2

theorem sources_regular {ws : VarDb F} {srcs : List (Src F)} (hw : Regular ws)
    (hr : ∀ s, Src.file (some s) ∈ srcs → Regular s) : ∀ s, some s ∈ sources ws srcs → Regular s := by
  intro s hs
  cases srcs with
  | nil =>
    simp only [sources, List.mem_singleton, Option.some.injEq] at hs
    subst hs; exact hw
  | cons a as =>
    simp only [sources] at hs
    obtain ⟨b, hb, he⟩ := List.mem_map.1 hs
    cases b with
    | ws => cases he; exact hw
    | file db => cases he; exact hr s hb

/-- Any sources. `w` are the databases of the computation (`Computed` above: read from the first source that has a series,
every identity holds in them at the periods of the execution sample); in the workspace the identities get the computed values
at these periods and keep their former values (or missing ones) elsewhere; all other variables are as before. -/
theorem C39_execution_partial {A : Arith F} {dflt : F} {dbi : Idts} (hst : Stored dbi) (hlex : ∀ e ∈ dbi, Lexed e.2.text) {vs es : Sample}
    (hv : vs.Fair) (he : es.Fair) {ws : VarDb F} (hws : ws.smpl = some vs) (hreg : Regular ws) {srcs : List (Src F)}
    (hr : ∀ s, Src.file (some s) ∈ srcs → Regular s) {scls : SMap F} {ws' : VarDb F}
    (h : execute A dflt dbi ws vs es srcs scls = .ok ws') :
    ws'.smpl = some vs ∧ (∀ k, dbi.has k = false → ws'.vars.find k = ws.vars.find k) ∧
    ∃ (d : Nat) (w : Ws F), es.start.difference vs.start = .ok d ∧ d + es.nb.toNat ≤ vs.nb.toNat ∧
      Computed A dbi vs es d (sources ws srcs) w ∧
      ∀ e ∈ dbi, ∃ y z, w.vars.find e.1 = some y ∧ ws'.vars.find e.1 = some z ∧ z.length = vs.nb.toNat ∧
        ∀ t, t < vs.nb.toNat →
          z[t]? = if d ≤ t ∧ t < d + es.nb.toNat then y[t]? else some (((ws.vars.find e.1).bind (·[t]?)).getD A.na) := by
  unfold execute at h
  obtain ⟨w, h1, h⟩ := Res.bind_eq_ok' h
  obtain ⟨m, h2, h⟩ := Res.bind_eq_ok' h
  obtain ⟨_, d, hd, d0, d1, ho, ho', hC⟩ := execAll_spec hst hlex hv he (sources_regular hreg hr) h1
  have hp := he.nb_pos
  have hlen := (hreg vs hws).2
  have hfe : ∀ k, (extract dbi w.vars).find k = if dbi.has (toKey .identities k) then w.vars.find k else none :=
    fun k => find_filter_key (p := fun k => dbi.has (toKey .identities k)) k w.vars
  have hse : SMap.Sorted (extract dbi w.vars) := sorted_filter hC.sorted
  have hwl : ∀ k x, w.vars.find k = some x → x.length = vs.nb.toNat := by
    intro k x hx
    obtain ⟨y, y1, y2, _⟩ := hC.read k ((SMap.mem_keys_iff _ _).2 ⟨x, hx⟩)
    rw [hx] at y1
    cases y1
    exact y2
  obtain ⟨g1, g2⟩ := shrink_spec (na := A.na) hv he d0 d1 ho (m := extract dbi w.vars) (r := m) (fun k x hx => by
    rw [hfe] at hx
    split at hx
    · exact hwl k x hx
    · cases hx) h2
  have hsm : SMap.Sorted m := sorted_keys g1.symm hse
  have hml : ∀ k x, m.find k = some x → x.length = es.nb.toNat := by
    intro k x hx
    have hk : k ∈ SMap.keys (extract dbi w.vars) := by rw [← g1]; exact (SMap.mem_keys_iff _ _).2 ⟨x, hx⟩
    obtain ⟨x0, hx0⟩ := (SMap.mem_keys_iff _ _).1 hk
    obtain ⟨y, y1, y2, _⟩ := g2 k x0 hx0
    rw [hx] at y1
    cases y1
    exact y2
  obtain ⟨m1, m2, m3⟩ := mergeDel_spec hv he d0 d1 ho ho' hlen hsm hml h
  have hkey : ∀ k ∈ w.vars.keys, toKey .identities k = k := by
    intro k hk
    obtain ⟨e, hm, hk⟩ := (hC.keys k).1 hk
    rcases hk with rfl | ⟨n, _, rfl⟩
    · exact hst.keys e hm
    · exact toKey_idem .variables n
  refine ⟨m1.trans hws, fun k hk => m2 k ?_, d.toNat, w, by rw [Int.toNat_of_nonneg d0]; exact hd, by omega, hC, ?_⟩
  · intro hm
    rw [g1] at hm
    obtain ⟨x, hx⟩ := (SMap.mem_keys_iff _ _).1 hm
    rw [hfe] at hx
    split at hx
    · next hh =>
      rw [hkey k ((SMap.mem_keys_iff _ _).2 ⟨x, hx⟩), hk] at hh
      cases hh
    · cases hx
  · intro e hm
    have hek : e.1 ∈ w.vars.keys := (hC.keys e.1).2 ⟨e, hm, Or.inl rfl⟩
    obtain ⟨y, hy⟩ := (SMap.mem_keys_iff _ _).1 hek
    have hhas : dbi.has (toKey .identities e.1) = true := by
      rw [hst.keys e hm]
      exact (SMap.has_iff_mem _ _).2 (List.mem_map_of_mem hm)
    obtain ⟨y1, e1, e2, e3⟩ := g2 e.1 y (by rw [hfe, hhas]; exact hy)
    obtain ⟨z, z1, z2, z3⟩ := m3 e.1 y1 e1
    refine ⟨y, z, hy, z1, z2, fun t ht => ?_⟩
    rw [z3 t ht]
    split
    · next hin => rw [e3 (t - d.toNat) (by omega), show d.toNat + (t - d.toNat) = t by omega]
    · rfl

/-- The variables are read in the workspace (no file): each identity holds *in the workspace*, at its final values, for every
period of the execution sample. -/
theorem C39_identities_hold_partial {A : Arith F} {dflt : F} {dbi : Idts} (hst : Stored dbi) (hlex : ∀ e ∈ dbi, Lexed e.2.text)
    {vs es : Sample} (hv : vs.Fair) (he : es.Fair) {ws : VarDb F} (hws : ws.smpl = some vs) (hreg : Regular ws)
    {scls : SMap F} {ws' : VarDb F} (h : execute A dflt dbi ws vs es [] scls = .ok ws') (scls' : SMap F) :
    ∃ d : Nat, es.start.difference vs.start = .ok d ∧ d + es.nb.toNat ≤ vs.nb.toNat ∧
      ∀ e ∈ dbi, ReadsItselfBefore A e.2 e.1 → ∀ t, d ≤ t → t < d + es.nb.toNat →
        ∃ z v, ws'.vars.find e.1 = some z ∧ z[t]? = some v ∧
          runText A ⟨vs.start, vs.nb, ws'.vars, scls'⟩ e.2.ops e.2.text t = .ok v := by
  have hnoc : ∀ e ∈ dbi, ∀ n ∈ mentions e.2.text, isCoef n = false := by
    intro e hm n hn
    cases hc : isCoef n with
    | false => rfl
    | true => exact absurd h (C39_scalars_are_never_read A dflt dbi ws vs es [] scls hm hn hc ws')
  obtain ⟨_, hno, d, w, hd, hdn, hC, hz⟩ := C39_execution_partial hst hlex hv he hws hreg (srcs := []) (by simp) h
  refine ⟨d, hd, hdn, fun e hm hself t h1 h2 => ?_⟩
  obtain ⟨y, z, y1, z1, _, z3⟩ := hz e hm
  obtain ⟨y', v, e1, e2, e3⟩ := hC.holds e hm hself t h1 h2
  rw [y1] at e1
  cases e1
  refine ⟨z, v, z1, by rw [z3 t (by omega), if_pos ⟨h1, h2⟩]; exact e2, ?_⟩
  rw [← e3]
  refine C29_depends_only_on_its_names A (hlex e hm) ⟨hC.start.symm, hC.nb.symm, fun n hn => ?_⟩ _ _
  unfold Ws.obj
  simp only [hnoc e hm n hn, Bool.false_eq_true, if_false]
  congr 1
  -- the series of the workspace is that of the computation
  have hk : toKey .variables n ∈ w.vars.keys := (hC.keys _).2 ⟨e, hm, Or.inr ⟨n, hn, rfl⟩⟩
  obtain ⟨y, y1, y2, r, hr, hsame, hout⟩ := hC.read _ hk
  have hrr : r = (ws.vars.find (toKey .variables n)).getD (List.replicate vs.nb.toNat A.na) := by
    simp only [sources, firstSource_one] at hr
    rcases hr with ⟨src, ts, x, a1, a2, a3, a4⟩ | ⟨a1, _, a3⟩
    · split at a1
      · cases a1
        rw [hws] at a2
        cases a2
        rw [a3, a4.self hv ((hreg vs hws).2 _ _ a3)]
        rfl
      · cases a1
    · split at a1
      · cases a1
      · next hh => rw [(SMap.has_false_iff _ _).1 (by simpa using hh), a3]; rfl
  cases hid : dbi.has (toKey .variables n) with
  | false =>
    rw [hno _ hid, y1, hsame hid, hrr]
    rcases hr with ⟨src, ts, x, a1, a2, a3, a4⟩ | ⟨_, a2, _⟩
    · simp only [sources, firstSource_one] at a1
      split at a1
      · cases a1; rw [a3]; rfl
      · cases a1
    · rw [hid] at a2; cases a2
  | true =>
    obtain ⟨g, hg⟩ := (SMap.has_iff _ _).1 hid
    obtain ⟨y0, z0, p1, p2, p3, p4⟩ := hz _ (mem_of_find hg)
    simp only at p1 p2
    rw [y1] at p1
    cases p1
    rw [p2, y1]
    congr 1
    refine List.ext_getElem? fun t => ?_
    by_cases ht : t < vs.nb.toNat
    · rw [p4 t ht]
      split
      · rfl
      · next hin =>
        rw [hout t (by omega), hrr]
        cases hf : ws.vars.find (toKey .variables n) with
        | none => simp [ht]
        | some x =>
          have := (hreg vs hws).2 _ _ hf
          simp [this, ht]
    · rw [List.getElem?_eq_none (by omega), List.getElem?_eq_none (by omega)]

/-- A formula that does not mention the identity itself satisfies the condition of the theorems. -/
theorem C39_no_self (A : Arith F) {f : Idt} (hl : Lexed f.text) {x : Name} (hx : ∀ n ∈ mentions f.text, toKey .variables n ≠ x) :
    ReadsItselfBefore A f x := by
  intro w y y' t _ _
  rw [C29_other_variables_do_not_matter A w hl x y hx, C29_other_variables_do_not_matter A w hl x y' hx]

/-- Top-level code in which `x` is read at former periods only, and not inside time functions. -/
def LaggedIn (x : Name) (code : List Instr) : Prop :=
  ∀ i ∈ code, (∃ n l, i = .var n l none ∧ l < 0) ∨ ∀ n, Tok.var n ∈ namesI i → toKey .variables n ≠ x

theorem exec_lagged (A : Arith F) {w : Ws F} {x : Name} {y y' : List F} {t : Nat} (hu : ∀ u, u < t → y[u]? = y'[u]?) :
    ∀ (code : List Instr), LaggedIn x code → ∀ s,
      exec A (Ws.env A { w with vars := w.vars.insert x y } t) true code t s =
        exec A (Ws.env A { w with vars := w.vars.insert x y' } t) true code t s
  | [], _, s => by simp only [exec]
  | i :: is, h, s => by
    have ih := exec_lagged A (w := w) hu is fun j hj => h j (List.mem_cons_of_mem _ hj)
    have hi : execI A (Ws.env A { w with vars := w.vars.insert x y } t) true i t s =
        execI A (Ws.env A { w with vars := w.vars.insert x y' } t) true i t s := by
      rcases h i (by simp) with ⟨n, l, rfl, hl⟩ | hn
      · have hat : Env.at A (Ws.env A { w with vars := w.vars.insert x y } t) n (l + t) =
            Env.at A (Ws.env A { w with vars := w.vars.insert x y' } t) n (l + t) := by
          unfold Env.at
          show (if 0 ≤ l + (t : Int) ∧ l + (t : Int) < w.nb then _ else _) = if 0 ≤ l + (t : Int) ∧ l + (t : Int) < w.nb then _ else _
          by_cases hin : 0 ≤ l + (t : Int) ∧ l + (t : Int) < w.nb
          · rw [if_pos hin, if_pos hin]
            simp only [Ws.env, Ws.obj]
            cases isCoef n
            case true => rfl
            case false =>
              simp only [Bool.false_eq_true, if_false]
              by_cases hk : toKey .variables n = x
              · subst hk
                simp only [SMap.find_insert_self, Option.map_some]
                have := hu (l + t).toNat (by omega)
                simp only [List.getD_eq_getElem?_getD, this]
              · rw [SMap.find_insert_ne _ _ hk, SMap.find_insert_ne _ _ hk]
          · rw [if_neg hin, if_neg hin]
        simp only [execI]
        exact congrArg (fun v => Res.ok (some (v :: s))) hat
      · refine execI_same A (E1 := Ws.env A { w with vars := w.vars.insert x y } t)
          (E2 := Ws.env A { w with vars := w.vars.insert x y' } t) true i ⟨rfl, rfl, rfl, fun n hm => ?_, fun n _ => ?_⟩ _ _
        · funext j
          simp only [Ws.env, Ws.obj]
          rw [SMap.find_insert_ne _ _ (hn n hm), SMap.find_insert_ne _ _ (hn n hm)]
        · simp only [Ws.env, Ws.obj]
          cases isCoef n
          · simp only [Bool.false_eq_true, if_false]
            cases hf : SMap.find (toKey .variables n) (w.vars.insert x y) <;>
              cases hf' : SMap.find (toKey .variables n) (w.vars.insert x y') <;> rfl
          · rfl
    simp only [exec, hi]
    congr 1
    funext o
    cases o with
    | none => rfl
    | some s => exact ih s

/-- A formula that reads the variable it defines with negative lags only (`K = K[-1] + I`) satisfies the condition of the
theorems. -/
theorem C39_lagged_self (A : Arith F) {f : Idt} (hl : Lexed f.text) {as : List Atom} {code : List Instr}
    (hc : compile f.ops (group f.text) = .ok as) (hb : build as = .ok code) {x : Name} (hx : LaggedIn x code) :
    ReadsItselfBefore A f x := by
  intro w y y' t _ hu
  have hobj : ∀ n, ((Ws.obj { w with vars := w.vars.insert x y } n).isSome = true ↔ (Ws.obj { w with vars := w.vars.insert x y' } n).isSome = true) := by
    intro n
    unfold Ws.obj
    split
    · rfl
    · by_cases hk : toKey .variables n = x
      · subst hk; simp [SMap.find_insert_self]
      · simp only [SMap.find_insert_ne _ _ hk]
  have hiff : (∃ l, linkText { w with vars := w.vars.insert x y } f.ops f.text = .ok l) ↔
      ∃ l, linkText { w with vars := w.vars.insert x y' } f.ops f.text = .ok l := by
    rw [C29_link_succeeds_iff _ hc hb, C29_link_succeeds_iff _ hc hb]
    exact ⟨fun h => ⟨fun n hn => (hobj n).1 (h.1 n hn), h.2⟩, fun h => ⟨fun n hn => (hobj n).2 (h.1 n hn), h.2⟩⟩
  have hnub : ∀ w : Ws F, linkText w f.ops f.text ≠ .ub := by
    intro w h
    simp only [linkText, hc, hb, Res.bindOk] at h
    cases hn : linkNames w (lnames (group f.text)) with
    | ub => exact linkNames_not_ub _ hn
    | err => rw [hn] at h; cases h
    | ok p =>
      rw [hn] at h
      simp only [Res.bindOk] at h
      cases hs : linkSample w code with
      | ok _ => rw [hs] at h; cases h
      | err => rw [hs] at h; cases h
      | ub => unfold linkSample at hs; split at hs <;> cases hs
  cases h1 : linkText { w with vars := w.vars.insert x y } f.ops f.text with
  | ub => exact absurd h1 (hnub _)
  | err =>
    cases h2 : linkText { w with vars := w.vars.insert x y' } f.ops f.text with
    | ub => exact absurd h2 (hnub _)
    | err => simp only [runText, h1, h2]; rfl
    | ok l => obtain ⟨l', hl'⟩ := hiff.2 ⟨l, h2⟩; rw [hl'] at h1; cases h1
  | ok l =>
    obtain ⟨l', h2⟩ := hiff.1 ⟨l, h1⟩
    rw [C29_linked_value A _ hl h1, C29_linked_value A _ hl h2]
    unfold evalText
    rw [hc]
    simp only [hb, Res.bindOk, execSub]
    rw [exec_lagged A hu code hx]

/-! ## Examples -/

/-- 2000Y1 to 2003Y1. -/
def exVs : Sample := ⟨⟨2000, 1, 'Y'⟩, ⟨2003, 1, 'Y'⟩, 4⟩
/-- 2001Y1 to 2002Y1. -/
def exEs : Sample := ⟨⟨2001, 1, 'Y'⟩, ⟨2002, 1, 'Y'⟩, 2⟩

theorem exVs_fair : exVs.Fair := ⟨3, ⟨⟨1, rfl, by decide, by decide⟩, ⟨1, rfl, by decide, by decide⟩, rfl, rfl⟩, by decide, rfl⟩
theorem exEs_fair : exEs.Fair := ⟨1, ⟨⟨1, rfl, by decide, by decide⟩, ⟨1, rfl, by decide, by decide⟩, rfl, rfl⟩, by decide, rfl⟩

/-- `C` and `X` exist, `B` exists, `A` does not; `Z` is not concerned. -/
def exVars : VarDb (Option Int) :=
  ⟨some exVs, [(nm 'B', [some 7, some 7, some 7, some 7]), (nm 'C', [some 100, some 0, some 0, some 5]),
    (nm 'X', [some 1, some 2, some 3, some 4]), (nm 'Z', [some 9, some 9, some 9, some 9])]⟩

theorem exVars_regular : Regular exVars := by
  intro ts h
  cases h
  refine ⟨exVs_fair, fun k x hx => ?_⟩
  have : (k, x) ∈ exVars.vars := mem_of_find hx
  simp only [exVars, List.mem_cons, List.not_mem_nil, or_false, Prod.mk.injEq] at this
  rcases this with ⟨_, rfl⟩ | ⟨_, rfl⟩ | ⟨_, rfl⟩ | ⟨_, rfl⟩ <;> rfl

theorem exReverse_stored : Stored exReverse := ⟨by simp [exReverse, SMap.Sorted]; decide, by decide⟩

theorem exReverse_lexed : ∀ e ∈ exReverse, Lexed e.2.text := by
  intro e he x
  have hc : ∀ e ∈ exReverse, (∀ k ∈ (group e.2.text).filterMap tokName, isCoef k = false) ∧
      ∀ k ∈ group e.2.text, (match k with | .coef _ => false | _ => true) = true := by decide +kernel
  refine ⟨fun h => (hc e he).1 x (List.mem_filterMap.2 ⟨_, h, rfl⟩), fun h => ?_⟩
  have := (hc e he).2 _ h
  cases this

/-- `A = B + C`, `B = C * 2`, `C = X + C[-1]` over 2001-2002, from the workspace. -/
example : execute exArith (some 9) exReverse exVars exVs exEs [] [] =
    .ok ⟨some exVs, [(nm 'A', [none, some 306, some 315, none]), (nm 'B', [some 7, some 204, some 210, some 7]),
      (nm 'C', [some 100, some 102, some 105, some 5]), (nm 'X', [some 1, some 2, some 3, some 4]),
      (nm 'Z', [some 9, some 9, some 9, some 9])]⟩ := by decide +kernel

/-- Each of these identities satisfies the condition of the theorems. -/
theorem exReverse_self : ∀ e ∈ exReverse, ReadsItselfBefore exArith e.2 e.1 := by
  intro e he
  have hl := exReverse_lexed e he
  simp only [exReverse, List.mem_cons, List.not_mem_nil, or_false] at he
  rcases he with rfl | rfl | rfl
  · exact C39_no_self _ hl (by decide +kernel)
  · exact C39_no_self _ hl (by decide +kernel)
  · refine C39_lagged_self _ hl (as := [.var (nm 'X') 0 none, .var (nm 'C') (-1) none, .op .plus])
      (code := [.var (nm 'X') 0 none, .var (nm 'C') (-1) none, .op .plus]) (by rfl) (by rfl) ?_
    intro i hi
    simp only [List.mem_cons, List.not_mem_nil, or_false] at hi
    rcases hi with rfl | rfl | rfl
    · exact Or.inr (by intro n hn; simp only [namesI, List.mem_singleton] at hn; cases hn; decide)
    · exact Or.inl ⟨_, _, rfl, by decide⟩
    · exact Or.inr (by intro n hn; cases hn)

/-- The theorem on this example. -/
example {ws' : VarDb (Option Int)} (h : execute exArith (some 9) exReverse exVars exVs exEs [] [] = .ok ws') :=
  C39_identities_hold_partial exReverse_stored exReverse_lexed exVs_fair exEs_fair rfl exVars_regular h []

/-- Two files: the first that has a series is used, also for periods it lacks; `Y` is then missing in 2002. -/
example : execute exArith (some 9) [(nm 'A', ⟨[], [.var (nm 'X'), .op .plus, .var (nm 'Y')]⟩)] exVars exVs exEs
    [.file (some ⟨some ⟨⟨1999, 1, 'Y'⟩, ⟨2001, 1, 'Y'⟩, 3⟩, [(nm 'Y', [some 5, some 6, some 8])]⟩), .ws,
      .file (some ⟨some exVs, [(nm 'X', [some 0, some 0, some 0, some 0]), (nm 'Y', [some 1, some 1, some 1, some 1])]⟩)] [] =
    .ok ⟨some exVs, exVars.vars.insert (nm 'A') [none, some 10, none, none]⟩ := by decide +kernel

/-- Without the condition the claim is false: after executing `A = A + 1` the value of `A` is not that of its definition. -/
theorem C39_reads_itself_counterexample :
    ∃ ws' z v, execute exArith (some 9) [(nm 'A', ⟨[], [.var (nm 'A'), .op .plus, .cst (.long 1)]⟩)]
        ⟨some exVs, [(nm 'A', [some 1, some 1, some 1, some 1])]⟩ exVs exEs [] [] = .ok ws' ∧
      ws'.vars.find (nm 'A') = some z ∧ z[1]? = some v ∧
      runText exArith ⟨exVs.start, exVs.nb, ws'.vars, []⟩ [] [.var (nm 'A'), .op .plus, .cst (.long 1)] 1 ≠ .ok v := by
  refine ⟨⟨some exVs, [(nm 'A', [some 1, some 2, some 2, some 1])]⟩, [some 1, some 2, some 2, some 1], some 2, ?_, ?_, ?_, ?_⟩ <;>
    decide +kernel

/-- The identity `A = X + c` fails although the scalar `c` exists. -/
theorem C39_scalar_counterexample :
    execute exArith (some 9) [(nm 'A', ⟨[], [.var (nm 'X'), .op .plus, .coef (nm 'c')]⟩)] exVars exVs exEs [] [(nm 'c', some 5)] =
      .err ∧
    runText exArith ⟨exVs.start, exVs.nb, exVars.vars, [(nm 'c', some 5)]⟩ [] [.var (nm 'X'), .op .plus, .coef (nm 'c')] 1 =
      .ok (some 7) := by
  constructor <;> decide +kernel

end Iode.Idt
