import Verif.Model.EstSave
import Verif.Lemmas.SMap
import Verif.Lemmas.RepFn
import Verif.Lemmas.Macros
import Verif.Lemmas.Text

/-!
# Lemmas on what an estimation saves
-/
namespace Iode.EstSave

open Iode.Args (Text)
open DataCmd (Out loop)

variable {F K : Type}

/-- The parts of an equation that are written by the user. -/
def texts (e : Eqn F) : Text × Text × Text × Text × Text := (e.endo, e.lec, e.comment, e.instruments, e.block)

/-- An equation with the results of an estimation. -/
def withResults (g : Eng F K) (s : Sample) (m : Int) (tests : List F) (e : Eqn F) : Eqn F :=
  { e with sample := some s, method := savedMethod m, date := g.today, tests := tests }

theorem bind_eq {α β : Type} {x : Res α} {f : α → Res β} {b : β} (h : x.bind f = .ok b) : ∃ a, x = .ok a ∧ f a = .ok b := by
  cases x with
  | ok a => exact ⟨a, rfl, h⟩
  | err => cases h
  | ub => cases h

theorem update_in {g : Eng F K} {name lec : Text} {m : Int} {s : Sample} {tests : List F} {st : St F K} {e : Eqn F}
    (hd : toKey .equations name ∈ st.dbe) (he : st.eqs.find (toKey .equations name) = some e) (hl : e.lec = lec) :
    update g name lec m s tests st = { st with eqs := st.eqs.insert (toKey .equations name) (withResults g s m tests e) } := by
  unfold update withResults
  simp only [if_pos hd, he]
  rw [← hl]

theorem saveEq_ok {g : Eng F K} {m : Int} {s : Sample} {off : Int} {r : Found F K} {j : Nat} {name lec : Text} {st st' : St F K}
    (h : saveEq g m s off r j name lec st = .ok st') :
    st'.eqs = (update g name lec m s (testsOf g r j) st).eqs ∧ st'.dbe = (update g name lec m s (testsOf g r j) st).dbe ∧
    st'.scls = tests2scl g (testsOf g r j) j s.nb.toNat r.nce (update g name lec m s (testsOf g r j) st).scls ∧ st'.seen = name :: (update g name lec m s (testsOf g r j) st).seen ∧
    ∃ v1 v2, saveVar g "_YCALC".toList j off s.nb.toNat (r.fit j) (update g name lec m s (testsOf g r j) st).vars = .ok v1 ∧
      saveVar g "_YOBS".toList j off s.nb.toNat (r.obs j) v1 = .ok v2 ∧ saveVar g "_YRES".toList j off s.nb.toNat (r.res j) v2 = .ok st'.vars := by
  simp only [saveEq] at h
  generalize "_YCALC".toList = a1, "_YOBS".toList = a2, "_YRES".toList = a3 at h ⊢
  generalize update g name lec m s (testsOf g r j) st = st1 at h ⊢
  generalize tests2scl g (testsOf g r j) j s.nb.toNat r.nce st1.scls = sc at h ⊢
  obtain ⟨v1, h1, h⟩ := bind_eq h
  obtain ⟨v2, h2, h⟩ := bind_eq h
  obtain ⟨v3, h3, h⟩ := bind_eq h
  injection h with h
  subst h
  exact ⟨rfl, rfl, rfl, rfl, v1, v2, h1, h2, h3⟩

theorem update_rest {g : Eng F K} {name lec : Text} {m : Int} {s : Sample} {tests : List F} {st : St F K} :
    (update g name lec m s tests st).scls = st.scls ∧ (update g name lec m s tests st).vars = st.vars ∧ (update g name lec m s tests st).seen = st.seen := by
  unfold update
  simp only []
  split
  · split <;> exact ⟨rfl, rfl, rfl⟩
  · exact ⟨rfl, rfl, rfl⟩

/-- The equations of the list are there, with this text. -/
def Here (st : St F K) (ms : List (Text × Text)) : Prop :=
  ∀ p ∈ ms, toKey .equations p.1 ∈ st.dbe ∧ ∃ e, st.eqs.find (toKey .equations p.1) = some e ∧ e.lec = p.2

theorem saveAll_eqs {g : Eng F K} {m : Int} {s : Sample} {off : Int} {r : Found F K} : ∀ (ms : List (Text × Text)) (j : Nat) (st st' : St F K),
    Here st ms → saveAll g m s off r j ms st = .ok st' →
    st'.dbe = st.dbe ∧ st'.seen = (ms.map (·.1)).reverse ++ st.seen ∧
    ∀ k, (∃ i w l e, ms[i]? = some (w, l) ∧ toKey .equations w = k ∧ st.eqs.find k = some e ∧ st'.eqs.find k = some (withResults g s m (testsOf g r (j + i)) e)) ∨
      ((∀ p ∈ ms, toKey .equations p.1 ≠ k) ∧ st'.eqs.find k = st.eqs.find k)
  | [], j, st, st', _, h => by
    injection h with h
    subst h
    exact ⟨rfl, rfl, fun k => .inr ⟨by simp, rfl⟩⟩
  | (name, lec) :: ms, j, st, st', hh, h => by
    unfold saveAll at h
    obtain ⟨st1, h1, h⟩ := bind_eq h
    obtain ⟨hd, e, he, hl⟩ := hh (name, lec) (by simp)
    simp only [] at hd he hl
    obtain ⟨q1, q2, -, q3, -⟩ := saveEq_ok h1
    rw [update_in hd he hl] at q1 q2 q3
    simp only [] at q1 q2 q3
    have hh1 : Here st1 ms := by
      intro p hp
      obtain ⟨a, e', b, c⟩ := hh p (by simp [hp])
      refine ⟨by rw [q2]; exact a, ?_⟩
      rw [q1, SMap.find_insert]
      split
      · rename_i hk
        refine ⟨_, rfl, ?_⟩
        rw [hk, he] at b
        injection b with b
        subst b
        exact c
      · exact ⟨e', b, c⟩
    obtain ⟨d1, d2, d3⟩ := saveAll_eqs ms (j + 1) st1 st' hh1 h
    refine ⟨d1.trans q2, by rw [d2, q3]; simp, fun k => ?_⟩
    rcases d3 k with ⟨i, w, l, e', a1, a2, a3, a4⟩ | ⟨a1, a2⟩
    · left
      have hji : j + 1 + i = j + (i + 1) := by omega
      rw [hji] at a4
      rw [q1, SMap.find_insert] at a3
      by_cases hk : k = toKey .equations name
      · rw [if_pos hk] at a3
        injection a3 with a3
        refine ⟨i + 1, w, l, e, by simpa using a1, a2, by rw [hk]; exact he, ?_⟩
        rw [a4, ← a3]
        rfl
      · rw [if_neg hk] at a3
        exact ⟨i + 1, w, l, e', by simpa using a1, a2, a3, a4⟩
    · rw [q1, SMap.find_insert] at a2
      by_cases hk : k = toKey .equations name
      · left
        rw [if_pos hk] at a2
        exact ⟨0, name, lec, e, rfl, hk.symm, by rw [hk]; exact he, a2⟩
      · right
        rw [if_neg hk] at a2
        refine ⟨fun p hp => ?_, a2⟩
        rcases List.mem_cons.mp hp with rfl | hp
        · exact fun e => hk e.symm
        · exact a1 p hp

/-! ## Names of the results -/

/-- `e0_r2` -/
def sclName (j : Nat) (txt : Text) : Text := 'e' :: (natToChars j ++ '_' :: txt)

theorem digits_split {w w' : Text} {c c' : Char} {r r' : Text} (hw : ∀ x ∈ w, isDigitC x = true) (hw' : ∀ x ∈ w', isDigitC x = true)
    (hc : isDigitC c = false) (hc' : isDigitC c' = false) (h : w ++ c :: r = w' ++ c' :: r') : w = w' ∧ r = r' := by
  induction w generalizing w' with
  | nil =>
    cases w' with
    | nil => simp only [List.nil_append] at h; injection h with _ h; exact ⟨rfl, h⟩
    | cons x w' =>
      simp only [List.nil_append, List.cons_append] at h
      injection h with h1 h2
      rw [h1, hw' x (by simp)] at hc
      cases hc
  | cons x w ih =>
    cases w' with
    | nil =>
      simp only [List.nil_append, List.cons_append] at h
      injection h with h1 h2
      rw [← h1, hw x (by simp)] at hc'
      cases hc'
    | cons y w' =>
      simp only [List.cons_append] at h
      injection h with h1 h2
      obtain ⟨a, b⟩ := ih (fun z hz => hw z (by simp [hz])) (fun z hz => hw' z (by simp [hz])) h2
      exact ⟨by rw [h1, a], b⟩

theorem sclName_inj {i j : Nat} {t u : Text} (h : sclName i t = sclName j u) : i = j ∧ t = u := by
  unfold sclName at h
  injection h with _ h
  obtain ⟨a, b⟩ := digits_split (natToChars_isDigit i) (natToChars_isDigit j) (by decide) (by decide) h
  exact ⟨Macros.natToChars_inj a, b⟩

theorem digit_plain {c : Char} (h : isDigitC c = true) : toLowerC c = c ∧ toUpperC c = c ∧ isTrimC c = false := by
  simp only [isDigitC, Bool.and_eq_true, decide_eq_true_eq] at h
  refine ⟨?_, ?_, ?_⟩
  · unfold toLowerC
    rw [if_neg (by omega)]
  · unfold toUpperC
    rw [if_neg (by omega)]
  · simp only [isTrimC, Bool.or_eq_false_iff, Bool.and_eq_false_iff, decide_eq_false_iff_not]
    omega

theorem map_self {f : Char → Char} : ∀ {t : Text}, (∀ c ∈ t, f c = c) → t.map f = t
  | [], _ => rfl
  | c :: t, h => by rw [List.map_cons, h c (by simp), map_self fun x hx => h x (by simp [hx])]

/-- Small letters and digits. -/
def Small (t : Text) : Prop := ∀ c ∈ t, toLowerC c = c ∧ isTrimC c = false

theorem key_sclName {j : Nat} {t : Text} (h : Small t) : toKey .scalars (sclName j t) = sclName j t := by
  have hs : Small (sclName j t) := by
    intro c hc
    unfold sclName at hc
    rcases List.mem_cons.mp hc with rfl | hc
    · decide
    · rcases List.mem_append.mp hc with hc | hc
      · exact ⟨(digit_plain (natToChars_isDigit j c hc)).1, (digit_plain (natToChars_isDigit j c hc)).2.2⟩
      · rcases List.mem_cons.mp hc with rfl | hc
        · decide
        · exact h c hc
  show toLower (trim (sclName j t)) = _
  rw [trim_eq_self fun c hc => (hs c hc).2]
  exact map_self fun c hc => (hs c hc).1

/-- A name of a variable with the number of the equation behind it. -/
theorem key_varName {b : Text} {j : Nat} (h : ∀ c ∈ b, toUpperC c = c ∧ isTrimC c = false) : toKey .variables (b ++ natToChars j) = b ++ natToChars j := by
  have hs : ∀ c ∈ b ++ natToChars j, toUpperC c = c ∧ isTrimC c = false := by
    intro c hc
    rcases List.mem_append.mp hc with hc | hc
    · exact h c hc
    · exact (digit_plain (natToChars_isDigit j c hc)).2
  show toUpper (trim (b ++ natToChars j)) = _
  rw [trim_eq_self fun c hc => (hs c hc).2]
  exact map_self fun c hc => (hs c hc).1

/-! ## Inserting many values -/

variable {V : Type}

def puts (m : SMap V) (l : List (Text × V)) : SMap V := l.foldl (fun m p => m.insert p.1 p.2) m

theorem puts_other : ∀ (l : List (Text × V)) (m : SMap V) {k : Text}, (∀ p ∈ l, p.1 ≠ k) → (puts m l).find k = m.find k
  | [], _, _, _ => rfl
  | p :: l, m, k, h => by
    show (puts (m.insert p.1 p.2) l).find k = _
    rw [puts_other l _ fun q hq => h q (by simp [hq]), SMap.find_insert_ne]
    exact (h p (by simp)).symm

theorem puts_mem : ∀ (l : List (Text × V)) (m : SMap V) {k : Text} {v : V}, (l.map (·.1)).Nodup → (k, v) ∈ l → (puts m l).find k = some v
  | p :: l, m, k, v, hn, h => by
    rw [List.map_cons, List.nodup_cons] at hn
    show (puts (m.insert p.1 p.2) l).find k = _
    rcases List.mem_cons.mp h with e | h
    · subst e
      rw [puts_other, SMap.find_insert_self]
      intro q hq e
      exact hn.1 (List.mem_map.mpr ⟨q, hq, e⟩)
    · exact puts_mem l _ hn.2 h

/-- What is shown of the results of one equation. -/
def shown (g : Eng F K) (r : Found F K) (j n : Nat) : List (Text × K) :=
  [("n".toList, g.int n), ("k".toList, g.int r.nce), ("stdev".toList, g.wide (r.test j 1)), ("meany".toList, g.wide (r.test j 2)),
   ("ssres".toList, g.wide (r.test j 3)), ("stderr".toList, g.wide (r.test j 4)), ("stderrp".toList, g.wide (r.test j 5)), ("fstat".toList, g.wide (r.test j 6)),
   ("r2".toList, g.wide (r.test j 7)), ("r2adj".toList, g.wide (r.test j 8)), ("dw".toList, g.wide (r.test j 9)), ("loglik".toList, g.wide (r.test j 10))]

def shownNames : List Text := ["n".toList, "k".toList, "stdev".toList, "meany".toList, "ssres".toList, "stderr".toList, "stderrp".toList, "fstat".toList, "r2".toList, "r2adj".toList, "dw".toList, "loglik".toList]

theorem shown_names (g : Eng F K) (r : Found F K) (j n : Nat) : (shown g r j n).map (·.1) = shownNames := rfl

theorem small_names : ∀ t ∈ shownNames, Small t := by unfold Small; decide +kernel

theorem nodup_names : shownNames.Nodup := by decide +kernel

def entries (g : Eng F K) (r : Found F K) (j n : Nat) : List (Text × Scl K) := (shown g r j n).map fun p => (sclName j p.1, ⟨p.2, g.one, none⟩)

theorem tests2scl_puts (g : Eng F K) (r : Found F K) (j n : Nat) (m : SMap (Scl K)) : tests2scl g (testsOf g r j) j n r.nce m = puts m (entries g r j n) := by
  have hk : ∀ t ∈ shownNames, toKey .scalars ('e' :: (natToChars j ++ '_' :: t)) = sclName j t := fun t ht => key_sclName (small_names t ht)
  have hg : ∀ i, i < 11 → (testsOf g r j).getD i g.zero = r.test j i := by
    intro i hi
    unfold testsOf
    rw [List.getD_eq_getElem?_getD, List.getElem?_append_left (by simpa using hi), List.getElem?_map, List.getElem?_range hi]
    rfl
  unfold tests2scl saveScl testNames entries shown puts
  simp only [List.foldl_cons, List.foldl_nil, List.map_cons, List.map_nil]
  rw [hg 1 (by omega), hg 2 (by omega), hg 3 (by omega), hg 4 (by omega), hg 5 (by omega), hg 6 (by omega), hg 7 (by omega), hg 8 (by omega), hg 9 (by omega), hg 10 (by omega)]
  rw [hk "n".toList (by decide +kernel), hk "k".toList (by decide +kernel), hk "stdev".toList (by decide +kernel), hk "meany".toList (by decide +kernel),
    hk "ssres".toList (by decide +kernel), hk "stderr".toList (by decide +kernel), hk "stderrp".toList (by decide +kernel), hk "fstat".toList (by decide +kernel),
    hk "r2".toList (by decide +kernel), hk "r2adj".toList (by decide +kernel), hk "dw".toList (by decide +kernel), hk "loglik".toList (by decide +kernel)]

theorem entries_nodup (g : Eng F K) (r : Found F K) (j n : Nat) : ((entries g r j n).map (·.1)).Nodup := by
  have e : (entries g r j n).map (·.1) = shownNames.map (sclName j) := rfl
  rw [e]
  refine List.Nodup.map (fun a b h => (sclName_inj h).2) nodup_names

/-- The scalars after the results of a block are saved. -/
theorem saveAll_scls {g : Eng F K} {m : Int} {s : Sample} {off : Int} {r : Found F K} : ∀ (ms : List (Text × Text)) (j : Nat) (st st' : St F K),
    saveAll g m s off r j ms st = .ok st' →
    (∀ i, i < ms.length → ∀ p ∈ shown g r (j + i) s.nb.toNat, st'.scls.find (sclName (j + i) p.1) = some ⟨p.2, g.one, none⟩) ∧
    ∀ k, (∀ i, i < ms.length → ∀ t ∈ shownNames, k ≠ sclName (j + i) t) → st'.scls.find k = st.scls.find k
  | [], j, st, st', h => by
    injection h with h
    subst h
    exact ⟨fun i hi => absurd hi (by simp), fun k _ => rfl⟩
  | (name, lec) :: ms, j, st, st', h => by
    unfold saveAll at h
    obtain ⟨st1, h1, h⟩ := bind_eq h
    obtain ⟨-, -, q, -⟩ := saveEq_ok h1
    rw [update_rest.1, tests2scl_puts] at q
    obtain ⟨d1, d2⟩ := saveAll_scls ms (j + 1) st1 st' h
    constructor
    · intro i hi p hp
      cases i with
      | zero =>
        have ho : st'.scls.find (sclName (j + 0) p.1) = st1.scls.find (sclName (j + 0) p.1) := d2 _ fun i _ t _ e => by
          have := (sclName_inj e).1
          omega
        rw [ho, q]
        exact puts_mem _ _ (entries_nodup g r j _) (List.mem_map.mpr ⟨p, hp, rfl⟩)
      | succ i =>
        have hji : j + (i + 1) = j + 1 + i := by omega
        rw [hji] at hp ⊢
        exact d1 i (by simpa using hi) p hp
    · intro k hk
      rw [d2 k, q, puts_other]
      · intro p hp e
        obtain ⟨x, hx, rfl⟩ := List.mem_map.mp hp
        refine hk 0 (by simp) x.1 ?_ e.symm
        rw [← shown_names g r j s.nb.toNat]
        exact List.mem_map.mpr ⟨x, hx, rfl⟩
      · intro i hi t ht
        have hji : j + 1 + i = j + (i + 1) := by omega
        rw [hji]
        exact hk (i + 1) (by simpa using hi) t ht

/-! ## Variables -/

/-- The values of a result on the sample of the variables. -/
def onSample (g : Eng F K) (off : Int) (n : Nat) (row : Nat → K) : List (Option K) :=
  (List.range g.nb).map fun i : Nat => if off ≤ (i : Int) ∧ (i : Int) < off + n then some (row ((i : Int) - off).toNat) else none

def resultVars (g : Eng F K) (off : Int) (n : Nat) (r : Found F K) (j : Nat) : List (Text × List (Option K)) :=
  [("_YCALC".toList ++ natToChars j, onSample g off n (r.fit j)), ("_YOBS".toList ++ natToChars j, onSample g off n (r.obs j)), ("_YRES".toList ++ natToChars j, onSample g off n (r.res j))]

theorem saveVar_ok {g : Eng F K} {b : Text} {j : Nat} {off : Int} {t : Nat} {row : Nat → K} {m m' : SMap (List (Option K))} (hb : ∀ c ∈ b, toUpperC c = c ∧ isTrimC c = false)
    (h : saveVar g b j off t row m = .ok m') : m' = m.insert (b ++ natToChars j) (onSample g off t row) := by
  unfold saveVar at h
  split at h
  · cases h
  · injection h with h
    rw [← h, key_varName hb]
    rfl

theorem bases : (∀ c ∈ "_YCALC".toList, toUpperC c = c ∧ isTrimC c = false) ∧ (∀ c ∈ "_YOBS".toList, toUpperC c = c ∧ isTrimC c = false) ∧ ∀ c ∈ "_YRES".toList, toUpperC c = c ∧ isTrimC c = false := by
  decide +kernel

theorem saveEq_vars {g : Eng F K} {m : Int} {s : Sample} {off : Int} {r : Found F K} {j : Nat} {name lec : Text} {st st' : St F K} (h : saveEq g m s off r j name lec st = .ok st') :
    st'.vars = puts st.vars (resultVars g off s.nb.toNat r j) := by
  obtain ⟨-, -, -, -, v1, v2, h1, h2, h3⟩ := saveEq_ok h
  rw [update_rest.2.1] at h1
  rw [saveVar_ok bases.2.2 h3, saveVar_ok bases.2.1 h2, saveVar_ok bases.1 h1]
  rfl

theorem resultVars_names (g : Eng F K) (off : Int) (n : Nat) (r : Found F K) (j : Nat) :
    (resultVars g off n r j).map (·.1) = ["_YCALC".toList ++ natToChars j, "_YOBS".toList ++ natToChars j, "_YRES".toList ++ natToChars j] := rfl

theorem varName_inj {a b : Text} (ha : a ∈ ["_YCALC".toList, "_YOBS".toList, "_YRES".toList]) (hb : b ∈ ["_YCALC".toList, "_YOBS".toList, "_YRES".toList]) {i j : Nat}
    (h : a ++ natToChars i = b ++ natToChars j) : a = b ∧ i = j := by
  have key : a = b := by
    have h2 : (a ++ natToChars i)[2]? = (b ++ natToChars j)[2]? := by rw [h]
    have hl : ∀ x ∈ ["_YCALC".toList, "_YOBS".toList, "_YRES".toList], ∀ y : Text, (x ++ y)[2]? = x[2]? := by
      intro x hx y
      refine List.getElem?_append_left ?_
      revert x
      decide +kernel
    rw [hl a ha, hl b hb] at h2
    have hd : ∀ a ∈ ["_YCALC".toList, "_YOBS".toList, "_YRES".toList], ∀ b ∈ ["_YCALC".toList, "_YOBS".toList, "_YRES".toList], a[2]? = b[2]? → a = b := by decide +kernel
    exact hd a ha b hb h2
  subst key
  exact ⟨rfl, Macros.natToChars_inj (List.append_cancel_left h)⟩

theorem resultVars_nodup (g : Eng F K) (off : Int) (n : Nat) (r : Found F K) (j : Nat) : ((resultVars g off n r j).map (·.1)).Nodup := by
  rw [resultVars_names]
  have e : ["_YCALC".toList ++ natToChars j, "_YOBS".toList ++ natToChars j, "_YRES".toList ++ natToChars j] = ["_YCALC".toList, "_YOBS".toList, "_YRES".toList].map (· ++ natToChars j) := rfl
  rw [e]
  exact List.Nodup.map (fun a b h => List.append_cancel_right h) (by decide +kernel)

/-- The variables after the results of a block are saved. -/
theorem saveAll_vars {g : Eng F K} {m : Int} {s : Sample} {off : Int} {r : Found F K} : ∀ (ms : List (Text × Text)) (j : Nat) (st st' : St F K),
    saveAll g m s off r j ms st = .ok st' →
    (∀ i, i < ms.length → ∀ p ∈ resultVars g off s.nb.toNat r (j + i), st'.vars.find p.1 = some p.2) ∧
    ∀ k, (∀ i, i < ms.length → ∀ b ∈ ["_YCALC".toList, "_YOBS".toList, "_YRES".toList], k ≠ b ++ natToChars (j + i)) → st'.vars.find k = st.vars.find k
  | [], j, st, st', h => by
    injection h with h
    subst h
    exact ⟨fun i hi => absurd hi (by simp), fun k _ => rfl⟩
  | (name, lec) :: ms, j, st, st', h => by
    unfold saveAll at h
    obtain ⟨st1, h1, h⟩ := bind_eq h
    have q := saveEq_vars h1
    obtain ⟨d1, d2⟩ := saveAll_vars ms (j + 1) st1 st' h
    have hb : ∀ j, ∀ p ∈ resultVars g off s.nb.toNat r j, ∃ b ∈ ["_YCALC".toList, "_YOBS".toList, "_YRES".toList], p.1 = b ++ natToChars j := by
      intro j p hp
      have : p.1 ∈ (resultVars g off s.nb.toNat r j).map (·.1) := List.mem_map.mpr ⟨p, hp, rfl⟩
      rw [resultVars_names] at this
      simp only [List.mem_cons, List.not_mem_nil, or_false] at this
      rcases this with e | e | e
      · exact ⟨_, .head _, e⟩
      · exact ⟨_, .tail _ (.head _), e⟩
      · exact ⟨_, .tail _ (.tail _ (.head _)), e⟩
    constructor
    · intro i hi p hp
      cases i with
      | zero =>
        obtain ⟨b, hb1, hb2⟩ := hb j p hp
        have ho : st'.vars.find p.1 = st1.vars.find p.1 := d2 _ fun i _ b' hb' e => by
          rw [hb2] at e
          have := (varName_inj hb1 hb' e).2
          omega
        rw [ho, q]
        exact puts_mem _ _ (resultVars_nodup g off _ r j) hp
      | succ i =>
        have hji : j + (i + 1) = j + 1 + i := by omega
        rw [hji] at hp
        exact d1 i (by simpa using hi) p hp
    · intro k hk
      rw [d2 k, q, puts_other]
      · intro p hp e
        obtain ⟨b, hb1, hb2⟩ := hb j p hp
        exact hk 0 (by simp) b hb1 (e ▸ hb2)
      · intro i hi b hb'
        have hji : j + 1 + i = j + (i + 1) := by omega
        rw [hji]
        exact hk (i + 1) (by simpa using hi) b hb'

end Iode.EstSave
