import Verif.Model.Idt
import Verif.Props.C29
import Verif.Props.C38
import Verif.Lemmas.Overlap

/-!
# Running identities: links stay valid, one identity changes one series
-/
namespace Iode.Idt

open Iode.Lec

variable {F : Type}

theorem keys_insert {V : Type} {k : Name} {v : V} : ∀ {m : SMap V}, SMap.Sorted m → k ∈ m.keys → (m.insert k v).keys = m.keys
  | [], _, h => by simp [SMap.keys] at h
  | (k', v') :: m, hs, h => by
    unfold SMap.insert
    by_cases h1 : k = k'
    · subst h1; simp [SMap.keys]
    · rw [if_neg h1]
      have hm : k ∈ SMap.keys m := by
        simp only [SMap.keys, List.map_cons, List.mem_cons] at h
        exact h.resolve_left h1
      have hlt : nameLt k k' = false := by
        cases h2 : nameLt k k' with
        | false => rfl
        | true =>
          have := SMap.nameLt_trans h2 (hs.1 k hm)
          rw [SMap.nameLt_irrefl] at this
          cases this
      have ih := keys_insert (v := v) hs.2 hm
      simp only [SMap.keys] at ih ⊢
      simp [hlt, ih]

theorem indexOf_keys {V W : Type} {ty : ObjType} {m : SMap V} {m' : SMap W} (h : m.keys = m'.keys) (n : Name) :
    indexOf ty m n = indexOf ty m' n := by
  have : ∀ {V : Type} (m : SMap V), indexOf ty m n = m.keys.findIdx? (fun k => decide (k = toKey ty n)) := by
    intro V m
    unfold indexOf SMap.keys
    rw [List.findIdx?_map]
    rfl
  rw [this, this, h]

/-- Linking depends only on the names in the workspaces and on their sample. -/
theorem linkText_keys {w w' : Ws F} (hs : w.start = w'.start) (hv : w.vars.keys = w'.vars.keys) (hc : w.scls.keys = w'.scls.keys)
    (ops : List Entry) (rts : List RTok) : linkText w ops rts = linkText w' ops rts := by
  have h1 : ∀ x, linkName w x = linkName w' x := by
    intro x
    unfold linkName
    rw [indexOf_keys hv, indexOf_keys hc]
  have h2 : ∀ xs, linkNames w xs = linkNames w' xs := by
    intro xs
    induction xs with
    | nil => rfl
    | cons x xs ih => simp only [linkNames, h1, ih]
  have h3 : hasPos w = hasPos w' := by funext p; simp only [hasPos, hs]
  unfold linkText
  simp only [h2, linkSample, h3]

/-- Two states of the same databases: same sample, names, scalars. -/
structure SameShape (w w' : Ws F) : Prop where
  start : w.start = w'.start
  nb : w.nb = w'.nb
  keys : w.vars.keys = w'.vars.keys
  scls : w.scls = w'.scls

theorem SameShape.refl (w : Ws F) : SameShape w w := ⟨rfl, rfl, rfl, rfl⟩
theorem SameShape.trans {a b c : Ws F} (h : SameShape a b) (h' : SameShape b c) : SameShape a c :=
  ⟨h.start.trans h'.start, h.nb.trans h'.nb, h.keys.trans h'.keys, h.scls.trans h'.scls⟩

/-- The value of a formula at `t` does not depend on the values from `t` on of the series `x`. -/
def ReadsItselfBefore (A : Arith F) (f : Idt) (x : Name) : Prop :=
  ∀ (w : Ws F) (y y' : List F) (t : Nat), y.length = y'.length → (∀ u, u < t → y[u]? = y'[u]?) →
    runText A { w with vars := w.vars.insert x y } f.ops f.text t = runText A { w with vars := w.vars.insert x y' } f.ops f.text t

theorem sorted_keys {V W : Type} : ∀ {m : SMap V} {m' : SMap W}, m.keys = m'.keys → SMap.Sorted m → SMap.Sorted m'
  | [], [], _, _ => trivial
  | [], e :: m, h, _ => by cases h
  | e :: m, [], h, _ => by cases h
  | e :: m, e' :: m', h, hs => by
    simp only [SMap.keys, List.map_cons, List.cons.injEq] at h
    simp only [SMap.Sorted] at hs ⊢
    refine ⟨fun k' hk => ?_, sorted_keys h.2 hs.2⟩
    rw [← h.1]
    exact hs.1 k' (by unfold SMap.keys; rw [h.2]; exact hk)

theorem insert_same {V : Type} {k : Name} {a b : V} (m : SMap V) : (m.insert k a).insert k b = m.insert k b := by
  induction m with
  | nil => simp [SMap.insert]
  | cons e l ih =>
    obtain ⟨k', v'⟩ := e
    by_cases h1 : k = k'
    · subst h1; simp [SMap.insert]
    · by_cases h2 : nameLt k k' = true
      · simp [SMap.insert, h1, h2]
      · simp [SMap.insert, h1, h2, ih]

theorem insert_find {V : Type} {k : Name} {v : V} : ∀ {m : SMap V}, SMap.Sorted m → m.find k = some v → m.insert k v = m
  | [], _, h => by simp [SMap.find] at h
  | (k', v') :: m, hs, h => by
    unfold SMap.insert
    unfold SMap.find at h
    by_cases h1 : k = k'
    · subst h1
      rw [if_pos rfl] at h ⊢
      cases h; rfl
    · rw [if_neg h1] at h ⊢
      have hm : k ∈ SMap.keys m := (SMap.mem_keys_iff k m).2 ⟨v, h⟩
      have hlt : nameLt k k' = false := by
        cases h2 : nameLt k k' with
        | false => rfl
        | true =>
          have := SMap.nameLt_trans h2 (hs.1 k hm)
          rw [SMap.nameLt_irrefl] at this
          cases this
      simp [hlt, insert_find hs.2 h]

/-- The periods of one identity: only its series changes, and it gets the values of the formula. -/
theorem runPeriods_spec {A : Arith F} {f : Idt} {x : Name} (hx : toKey .variables x = x) {l : Linked} :
    ∀ (n : Nat) (t : Nat) (w w' : Ws F), SMap.Sorted w.vars → linkText w f.ops f.text = .ok l →
    runPeriods A l x n t w = .ok w' →
    SameShape w w' ∧ (∀ k, k ≠ x → w'.vars.find k = w.vars.find k) ∧
    (0 < n → ∃ y y', w.vars.find x = some y ∧ w'.vars = w.vars.insert x y' ∧ y'.length = y.length ∧ t + n ≤ y.length ∧
      (∀ u, (u < t ∨ t + n ≤ u) → y'[u]? = y[u]?) ∧
      (ReadsItselfBefore A f x → ∀ u, t ≤ u → u < t + n → ∃ d, y'[u]? = some d ∧ runText A w' f.ops f.text u = .ok d))
  | 0, t, w, w', _, _, h => by
    cases h
    exact ⟨.refl _, fun _ _ => rfl, fun h => absurd h (Nat.lt_irrefl _)⟩
  | n + 1, t, w, w', hs, hl, h => by
    unfold runPeriods at h
    obtain ⟨d, h1, h⟩ := Res.bind_eq_ok' h
    obtain ⟨w1, h2, h⟩ := Res.bind_eq_ok' h
    unfold store at h2
    rw [hx] at h2
    cases hf : w.vars.find x with
    | none => rw [hf] at h2; cases h2
    | some y =>
      rw [hf] at h2
      simp only at h2
      by_cases hb : (0 : Int) ≤ t ∧ (t : Int) < y.length
      · rw [if_pos hb] at h2
        cases h2
        have hk : x ∈ w.vars.keys := (SMap.mem_keys_iff x _).2 ⟨y, hf⟩
        have hsh : SameShape w { w with vars := w.vars.insert x (y.set t d) } :=
          ⟨rfl, rfl, (keys_insert hs hk).symm, rfl⟩
        have hs1 : SMap.Sorted (w.vars.insert x (y.set t d)) := SMap.sorted_insert _ _ _ hs
        have hl1 : linkText { w with vars := w.vars.insert x (y.set t d) } f.ops f.text = .ok l := by
          rw [← linkText_keys (w := w) (w' := { w with vars := w.vars.insert x (y.set t d) }) rfl hsh.keys rfl]; exact hl
        have hdt : runText A w f.ops f.text t = .ok d := by
          unfold runText
          rw [hl]; exact h1
        obtain ⟨g1, g2, g3⟩ := runPeriods_spec (A := A) (f := f) hx n (t + 1) _ w' hs1 hl1 (by simpa using h)
        refine ⟨hsh.trans g1, fun k hk => by rw [g2 k hk, SMap.find_insert_ne _ _ hk], fun _ => ?_⟩
        have hself : ∀ (w : Ws F), SMap.Sorted w.vars → w.vars.find x = some y → ∀ y', y'.length = y.length →
            (∀ u, u < t → y'[u]? = y[u]?) → ReadsItselfBefore A f x → runText A w f.ops f.text t = .ok d →
            runText A { w with vars := w.vars.insert x y' } f.ops f.text t = .ok d := by
          intro w hs hf y' hy' hu hr hd
          rw [← hr w y y' t hy'.symm (fun u h => (hu u h).symm), insert_find hs hf]
          exact hd
        cases n with
        | zero =>
          cases h
          refine ⟨y, y.set t d, rfl, rfl, by simp, by omega, ?_, ?_⟩
          · intro u hu
            rw [List.getElem?_set_ne (by omega)]
          · intro hr u h1 h2
            have : u = t := by omega
            subst this
            refine ⟨d, ?_, ?_⟩
            · rw [List.getElem?_set_self (by omega)]
            · exact hself w hs hf _ (by simp) (fun v hv => by rw [List.getElem?_set_ne (by omega)]) hr hdt
        | succ n =>
          obtain ⟨y1, y', e1, e2, e3, e4, e5, e6⟩ := g3 (by omega)
          simp only [SMap.find_insert_self] at e1
          cases e1
          rw [insert_same] at e2
          have hlen : y'.length = y.length := by simpa using e3
          refine ⟨y, y', rfl, e2, hlen, by simpa using (by omega : t + (n + 1 + 1) ≤ (y.set t d).length), ?_, ?_⟩
          · intro u hu
            rw [e5 u (by omega), List.getElem?_set_ne (by omega)]
          · intro hr u h1 h2
            by_cases hut : u = t
            · subst hut
              refine ⟨d, by rw [e5 u (by omega), List.getElem?_set_self (by omega)], ?_⟩
              have hw' : w' = { w with vars := w.vars.insert x y' } := by
                have a1 := g1.start; have a2 := g1.nb; have a3 := g1.scls
                cases w'; simp_all
              rw [hw']
              exact hself w hs hf y' hlen (fun v hv => by rw [e5 v (by omega), List.getElem?_set_ne (by omega)]) hr hdt
            · exact e6 hr u (by omega) (by omega)
      · rw [if_neg hb] at h2; cases h2

/-- The identity `i` holds at the periods `start .. start + n - 1`. -/
def Holds (A : Arith F) (dbi : Idts) (start n : Nat) (w : Ws F) (i : Nat) : Prop :=
  ∀ x f, dbi[i]? = some (x, f) → ReadsItselfBefore A f x → ∀ u, start ≤ u → u < start + n →
    ∃ y d, w.vars.find x = some y ∧ y[u]? = some d ∧ runText A w f.ops f.text u = .ok d

theorem stored_inj {dbi : Idts} (hst : Stored dbi) {i j : Nat} {x : Name} {f g : Idt} (hi : dbi[i]? = some (x, f))
    (hj : dbi[j]? = some (x, g)) : i = j := by
  have hk := hst.keys _ (List.mem_of_getElem? hi)
  have h1 := indexOf_of_get (ty := .identities) (n := x) (sorted_nodup hst.sorted) (v := f) (by rw [hk]; exact hi)
  have h2 := indexOf_of_get (ty := .identities) (n := x) (sorted_nodup hst.sorted) (v := g) (by rw [hk]; exact hj)
  rw [h1] at h2
  exact Option.some.inj h2

/-- After running identity `i`, the identities run before still hold: they do not use it. -/
theorem Holds.step {A : Arith F} {dbi : Idts} (hst : Stored dbi) (hlex : ∀ e ∈ dbi, Lexed e.2.text) {start n : Nat}
    {w w' : Ws F} {i j : Nat} {x : Name} {f : Idt} (hi : dbi[i]? = some (x, f)) (hij : i ≠ j) (hu : ¬ Uses dbi j i)
    (hsh : SameShape w w') (hfr : ∀ k, k ≠ x → w'.vars.find k = w.vars.find k) (hj : Holds A dbi start n w j) :
    Holds A dbi start n w' j := by
  intro z g hz hr u h1 h2
  obtain ⟨y, d, e1, e2, e3⟩ := hj z g hz hr u h1 h2
  have hzx : z ≠ x := by rintro rfl; exact hij (stored_inj hst hi hz)
  refine ⟨y, d, by rw [hfr z hzx]; exact e1, e2, ?_⟩
  rw [← e3]
  refine C29_depends_only_on_its_names A (hlex _ (List.mem_of_getElem? hz)) ⟨hsh.start.symm, hsh.nb.symm, fun nm hnm => ?_⟩ _ _
  unfold Ws.obj
  split
  · rw [hsh.scls]
  · next hc =>
    rw [hfr]
    intro he
    refine hu ⟨hij, z, g, x, f, hz, hi, nm, hnm, by simpa using hc, he⟩

theorem runAll_spec {A : Arith F} {dbi : Idts} (hst : Stored dbi) (hlex : ∀ e ∈ dbi, Lexed e.2.text) {start n : Nat} (hn : 0 < n)
    {order : List Nat} (hv : ValidOrder dbi order) : ∀ (is pre : List Nat) (w w' : Ws F), order = pre ++ is →
    SMap.Sorted w.vars → (∀ j ∈ pre, Holds A dbi start n w j) → runAll A dbi start n is w = .ok w' →
    SameShape w w' ∧ (∀ j ∈ order, Holds A dbi start n w' j) ∧
    (∀ k, dbi.has k = false → w'.vars.find k = w.vars.find k) ∧
    (∀ k y, w.vars.find k = some y → ∃ y', w'.vars.find k = some y' ∧ y'.length = y.length ∧
      ∀ u, (u < start ∨ start + n ≤ u) → y'[u]? = y[u]?)
  | [], pre, w, w', ho, _, hp, h => by
    cases h
    rw [List.append_nil] at ho
    subst ho
    exact ⟨.refl _, hp, fun _ _ => rfl, fun k y hy => ⟨y, hy, rfl, fun _ _ => rfl⟩⟩
  | i :: is, pre, w, w', ho, hs, hp, h => by
    unfold runAll at h
    cases hi : dbi[i]? with
    | none => rw [hi] at h; cases h
    | some e =>
      obtain ⟨x, f⟩ := e
      rw [hi] at h
      simp only at h
      obtain ⟨l, hl, h⟩ := Res.bind_eq_ok' h
      obtain ⟨w1, hr, h⟩ := Res.bind_eq_ok' h
      have hx : toKey .variables x = x := hst.keys _ (List.mem_of_getElem? hi)
      obtain ⟨g1, g2, g3⟩ := runPeriods_spec hx n start w w1 hs hl hr
      obtain ⟨y, y', e1, e2, e3, e4, e5, e6⟩ := g3 hn
      have hnd : order.Nodup := hv.perm.nodup_iff.2 List.nodup_range
      have hip : ∀ j ∈ pre, i ≠ j := by
        rintro j hj rfl
        rw [ho, List.nodup_append] at hnd
        exact hnd.2.2 i hj i (by simp) rfl
      have hbefore : ∀ j ∈ pre, ¬ Uses dbi j i := by
        intro j hj hu
        have := hv.lt hu
        rw [ho] at this
        obtain ⟨p1, p2, rfl⟩ := List.append_of_mem hj
        have hni : i ∉ p1 ++ j :: p2 := fun hm => hip i hm rfl
        rw [List.idxOf_append_of_notMem hni, List.idxOf_append_of_mem hj] at this
        have := List.idxOf_lt_length_of_mem hj
        omega
      have hs1 : SMap.Sorted w1.vars := by rw [e2]; exact SMap.sorted_insert _ _ _ hs
      obtain ⟨k1, k2, k3, k4⟩ := runAll_spec hst hlex hn hv is (pre ++ [i]) w1 w' (by rw [ho]; simp) hs1 (by
        intro j hj
        rcases List.mem_append.1 hj with hj | hj
        · exact (hp j hj).step hst hlex hi (hip j hj) (hbefore j hj) g1 g2
        · rw [List.mem_singleton.1 hj]
          intro z g hz hself u h1 h2
          rw [hi] at hz
          cases hz
          obtain ⟨d, d1, d2⟩ := e6 hself u h1 h2
          exact ⟨y', d, by rw [e2, SMap.find_insert_self], d1, d2⟩) h
      refine ⟨g1.trans k1, k2, ?_, ?_⟩
      · intro k hk
        rw [k3 k hk, g2]
        rintro rfl
        have : SMap.has k dbi = true := (SMap.has_iff_mem _ _).2 (List.mem_map.2 ⟨_, List.mem_of_getElem? hi, rfl⟩)
        rw [this] at hk
        cases hk
      · intro k z hz
        by_cases hk : k = x
        · subst hk
          rw [e1] at hz
          cases hz
          obtain ⟨z', z1, z2, z3⟩ := k4 k y' (by rw [e2, SMap.find_insert_self])
          exact ⟨z', z1, by omega, fun u hu => by rw [z3 u hu, e5 u hu]⟩
        · exact k4 k z (by rw [g2 k hk]; exact hz)

end Iode.Idt
