import Verif.Model.EstEdit
import Verif.Props.C65
import Verif.Props.C77

/-! Helper lemmas for C79. -/
namespace Iode.EstEdit

open Iode.Args (Text pieces)
open DataCmd (Out loop)
open EstSave (Eqn Scl Eng Found Req St savedMethod testsOf saveAll saveEq update blockOf cut testNames together shownNames bind_eq saveEq_ok update_rest)

variable {F K : Type}

/-- The names of the results of estimations. -/
def IsResult (k : Text) : Prop := ∃ (j : Nat) (t : Text), t ∈ shownNames ∧ k = 'e' :: (natToChars j ++ '_' :: t)

def IsResultVar (k : Text) : Prop := ∃ (j : Nat) (b : Text), b ∈ ["_YCALC".toList, "_YOBS".toList, "_YRES".toList] ∧ k = b ++ natToChars j

/-! ## Maps -/

theorem copyIn_find (src : SMap (Scl K)) : ∀ (ks : List Text) (m : SMap (Scl K)) (k : Text), (copyIn src ks m).find k = if k ∈ ks then (src.find k <|> m.find k) else m.find k
  | [], m, k => by simp [copyIn]
  | a :: ks, m, k => by
    have e : copyIn src (a :: ks) m = copyIn src ks (match src.find a with | some v => m.insert a v | none => m) := rfl
    rw [e, copyIn_find src ks]
    have hm : (match src.find a with | some v => m.insert a v | none => m).find k = if k = a then (src.find k <|> m.find k) else m.find k := by
      cases hs : src.find a with
      | none =>
        simp only []
        split
        · rename_i h; subst h; rw [hs]; rfl
        · rfl
      | some v =>
        simp only []
        rw [SMap.find_insert]
        split
        · rename_i h; subst h; rw [hs]; rfl
        · rfl
    rw [hm]
    by_cases ha : k = a
    · subst ha
      simp only [List.mem_cons, true_or, if_true]
      split
      · cases src.find k <;> rfl
      · rfl
    · simp only [List.mem_cons, ha, false_or, if_false]

theorem addEq_find (S : Sys F K) (geqs eqs : SMap (Eqn F)) {n : Text} (hn : toKey .equations n = n) (k : Text) :
    (addEq S geqs eqs n).find k = (eqs.find k <|> if k = n then some (((geqs.find n).map copied).getD (fresh S n)) else none) := by
  unfold addEq
  rw [hn]
  cases he : eqs.find n with
  | some e =>
    simp only []
    split
    · rename_i h; subst h; rw [he]; rfl
    · cases eqs.find k <;> rfl
  | none =>
    simp only []
    rw [SMap.find_insert]
    split
    · rename_i h
      subst h
      rw [he]
      cases geqs.find k <;> rfl
    · cases eqs.find k <;> rfl

theorem addEqs_find (S : Sys F K) (geqs : SMap (Eqn F)) : ∀ (ns : List Text) (eqs : SMap (Eqn F)), (∀ n ∈ ns, toKey .equations n = n) → ∀ k,
    (ns.foldl (addEq S geqs) eqs).find k = (eqs.find k <|> if k ∈ ns then some (((geqs.find k).map copied).getD (fresh S k)) else none)
  | [], eqs, _, k => by simp
  | n :: ns, eqs, h, k => by
    rw [List.foldl_cons, addEqs_find S geqs ns _ (fun m hm => h m (by simp [hm])), addEq_find S geqs eqs (h n (by simp))]
    cases eqs.find k with
    | some e => rfl
    | none =>
      by_cases hk : k = n
      · subst hk
        simp
      · simp [hk]

theorem setParams_find (s : Ses F K) (eqs : SMap (Eqn F)) {n : Text} (hn : toKey .equations n = n) (k : Text) :
    (setParams s eqs n).find k = if k = n then (eqs.find k).map fun e => { e with method := s.method, block := s.block, instruments := s.instruments } else eqs.find k := by
  unfold setParams
  rw [hn]
  cases he : eqs.find n with
  | none =>
    simp only []
    split
    · rename_i h; subst h; rw [he]; rfl
    · rfl
  | some e =>
    simp only []
    rw [SMap.find_insert]
    split
    · rename_i h; subst h; rw [he]; rfl
    · rfl

theorem setAll_find (s : Ses F K) : ∀ (ns : List Text) (eqs : SMap (Eqn F)), (∀ n ∈ ns, toKey .equations n = n) → ∀ k,
    (ns.foldl (setParams s) eqs).find k = if k ∈ ns then (eqs.find k).map fun e => { e with method := s.method, block := s.block, instruments := s.instruments } else eqs.find k
  | [], eqs, _, k => by simp
  | n :: ns, eqs, h, k => by
    rw [List.foldl_cons, setAll_find s ns _ (fun m hm => h m (by simp [hm])), setParams_find s eqs (h n (by simp))]
    by_cases hk : k = n
    · subst hk
      simp only [if_true, List.mem_cons, true_or]
      split
      · cases eqs.find k <;> rfl
      · rfl
    · simp only [hk, if_false, List.mem_cons, false_or]

/-! ## Names -/

theorem valid_single {n : Text} (h : checkName .equations n = true) : (∀ c ∈ n, c ∉ [' ', ',', ';']) ∧ n ≠ [] := by
  obtain ⟨h1, -, h3⟩ := checkName_chars h
  refine ⟨fun c hc hb => ?_, h1⟩
  have := h3 c hc
  have hno : ∀ x ∈ [' ', ',', ';'], nameTailOk .equations x = false := by decide
  rw [hno c hb] at this
  cases this

theorem pieces_join : ∀ {ns : List Text}, (∀ n ∈ ns, checkName .equations n = true) → pieces [' ', ',', ';'] (Lists.join ns) = ns
  | [], _ => by simp [Lists.join, Args.pieces_nil]
  | [n], h => by
    obtain ⟨h1, h2⟩ := valid_single (h n (by simp))
    exact Args.pieces_end h1 h2
  | n :: m :: ns, h => by
    obtain ⟨h1, h2⟩ := valid_single (h n (by simp))
    have ih := pieces_join (ns := m :: ns) fun x hx => h x (by simp [hx])
    rw [Lists.join]
    · rw [Args.pieces_word (by decide) _ h1 h2, ih]
    · simp

theorem put_mem (n : Text) : ∀ (l : List Text) (k : Text), k ∈ put n l ↔ k = n ∨ k ∈ l
  | [], k => by simp [put]
  | m :: l, k => by
    unfold put
    split
    · rename_i h; subst h; simp
    · split
      · simp
      · rw [List.mem_cons, put_mem n l, List.mem_cons]
        constructor
        · rintro (h | h | h) <;> simp [h]
        · rintro (h | h | h) <;> simp [h]

theorem put_nodup {n : Text} : ∀ {l : List Text}, n ∉ l → l.Nodup → (put n l).Nodup
  | [], _, _ => by simp [put]
  | m :: l, h, hl => by
    unfold put
    simp only [List.mem_cons, not_or] at h
    rw [if_neg h.1]
    split
    · exact List.nodup_cons.mpr ⟨by simp [h], hl⟩
    · obtain ⟨a, b⟩ := List.nodup_cons.mp hl
      refine List.nodup_cons.mpr ⟨?_, put_nodup h.2 b⟩
      rw [put_mem]
      rintro (e | e)
      · exact h.1 e.symm
      · exact a e

/-! ## One estimation -/

/-- The equation after an estimation with the LEC `l`. -/
def estimated (g : Eng F K) (s : Sample) (m : Int) (tests : List F) (l : Text) (e : Eqn F) : Eqn F :=
  { e with sample := some s, lec := l, method := savedMethod m, date := g.today, tests := tests }

theorem saveAll_found {g : Eng F K} {m : Int} {s : Sample} {off : Int} {r : Found F K} : ∀ (ms : List (Text × Text)) (j : Nat) (st st' : St F K),
    (∀ p ∈ ms, toKey .equations p.1 = p.1 ∧ p.1 ∈ st.dbe ∧ ∃ e, st.eqs.find p.1 = some e) → (ms.map (·.1)).Nodup → saveAll g m s off r j ms st = .ok st' →
    st'.seen = (ms.map (·.1)).reverse ++ st.seen ∧
    (∀ i w l, ms[i]? = some (w, l) → ∃ e, st.eqs.find w = some e ∧ st'.eqs.find w = some (estimated g s m (testsOf g r (j + i)) l e)) ∧
    ∀ k, k ∉ ms.map (·.1) → st'.eqs.find k = st.eqs.find k
  | [], j, st, st', _, _, h => by
    injection h with h
    subst h
    exact ⟨rfl, by simp, fun k _ => rfl⟩
  | (name, lec) :: ms, j, st, st', hh, hn, h => by
    unfold saveAll at h
    obtain ⟨st1, h1, h⟩ := bind_eq h
    obtain ⟨hk, hd, e, he⟩ := hh (name, lec) (by simp)
    simp only [] at hk hd he
    obtain ⟨q1, q2, -, q3, -⟩ := saveEq_ok h1
    have hu : update g name lec m s (testsOf g r j) st = { st with eqs := st.eqs.insert name (estimated g s m (testsOf g r j) lec e) } := by
      unfold update estimated
      simp only [hk, if_pos hd, he]
    rw [hu] at q1 q2 q3
    simp only [] at q1 q2 q3
    rw [List.map_cons, List.nodup_cons] at hn
    obtain ⟨d1, d2, d3⟩ := saveAll_found ms (j + 1) st1 st' (fun p hp => by
      obtain ⟨a, b, e', c⟩ := hh p (by simp [hp])
      refine ⟨a, by rw [q2]; exact b, ?_⟩
      rw [q1, SMap.find_insert]
      split
      · exact ⟨_, rfl⟩
      · exact ⟨e', c⟩) hn.2 h
    refine ⟨by rw [d1, q3]; simp, fun i w l hi => ?_, fun k hk' => ?_⟩
    · cases i with
      | zero =>
        simp only [List.getElem?_cons_zero, Option.some.injEq, Prod.mk.injEq] at hi
        obtain ⟨rfl, rfl⟩ := hi
        refine ⟨e, he, ?_⟩
        rw [d3 _ hn.1, q1, SMap.find_insert, if_pos rfl]
        rfl
      | succ i =>
        rw [List.getElem?_cons_succ] at hi
        obtain ⟨e', a, b⟩ := d2 i w l hi
        have hw : w ≠ name := by
          rintro rfl
          exact hn.1 (List.mem_map.mpr ⟨(w, l), List.mem_of_getElem? hi, rfl⟩)
        rw [q1, SMap.find_insert, if_neg hw] at a
        rw [show j + 1 + i = j + (i + 1) by omega] at b
        exact ⟨e', a, b⟩
    · rw [List.map_cons, List.mem_cons, not_or] at hk'
      rw [d3 k hk'.2, q1, SMap.find_insert, if_neg hk'.1]

theorem saveAll_keeps {g : Eng F K} {m : Int} {s : Sample} {off : Int} {r : Found F K} : ∀ (ms : List (Text × Text)) (j : Nat) (st st' : St F K),
    saveAll g m s off r j ms st = .ok st' → ∀ k, (∃ e, st.eqs.find k = some e) → ∃ e, st'.eqs.find k = some e
  | [], j, st, st', h => by
    injection h with h
    subst h
    exact fun k h => h
  | (name, lec) :: ms, j, st, st', h => by
    unfold saveAll at h
    obtain ⟨st1, h1, h⟩ := bind_eq h
    intro k hk
    refine saveAll_keeps ms (j + 1) st1 st' h k ?_
    rw [(saveEq_ok h1).1]
    unfold update
    simp only []
    split
    · split
      · simp only []
        rw [SMap.find_insert]
        split
        · exact ⟨_, rfl⟩
        · exact hk
      · exact hk
    · simp only []
      rw [SMap.find_insert]
      split
      · exact ⟨_, rfl⟩
      · exact hk

/-- The state an operation leaves. -/
def Leaves {σ : Type} (o : Out σ) (s : σ) : Prop := o = .done s ∨ o = .failed s ∨ o = .thrown s

/-- What an estimation leaves alone. -/
structure Quiet (s s' : Ses F K) : Prop where
  geqs : s'.geqs = s.geqs
  names : s'.names = s.names
  cur : s'.cur = s.cur
  block : s'.block = s.block
  instruments : s'.instruments = s.instruments
  method : s'.method = s.method
  sample : s'.sample = s.sample
  keys : ∀ k, (∃ e, s.eqs.find k = some e) → ∃ e, s'.eqs.find k = some e
  vars : ∀ k, ¬ IsResultVar k → s'.gvars.find k = s.gvars.find k
  shared : ∀ k, k ∈ s'.shared → k ∈ s.shared
  scls : s.shared = [] → ∀ k, ¬ IsResult k → s'.gscls.find k = s.gscls.find k

theorem Quiet.refl (s : Ses F K) : Quiet s s := ⟨rfl, rfl, rfl, rfl, rfl, rfl, rfl, fun _ h => h, fun _ _ => rfl, fun _ h => h, fun _ _ _ => rfl⟩

theorem Quiet.none {s s' : Ses F K} (h : Quiet s s') (h1 : s.shared = []) : s'.shared = [] :=
  List.eq_nil_iff_forall_not_mem.mpr fun k hk => by have := h.shared k hk; rw [h1] at this; cases this

theorem Quiet.trans {a b c : Ses F K} (h : Quiet a b) (h' : Quiet b c) : Quiet a c :=
  ⟨h'.geqs.trans h.geqs, h'.names.trans h.names, h'.cur.trans h.cur, h'.block.trans h.block, h'.instruments.trans h.instruments, h'.method.trans h.method, h'.sample.trans h.sample,
    fun k hk => h'.keys k (h.keys k hk), fun k hk => (h'.vars k hk).trans (h.vars k hk), fun k hk => h.shared k (h'.shared k hk),
    fun hs k hk => (h'.scls (h.none hs) k hk).trans (h.scls hs k hk)⟩

theorem insert_keeps {V : Type} {m : SMap V} {n : Text} {v : V} {k : Text} (h : ∃ e, m.find k = some e) : ∃ e, (m.insert n v).find k = some e := by
  rw [SMap.find_insert]
  split
  · exact ⟨_, rfl⟩
  · exact h

theorem written_none {scls : SMap (Scl K)} {s : Ses F K} (h : s.shared = []) : (written scls s).gscls = s.gscls := by
  unfold written copyIn
  rw [h]
  rfl

theorem estOne_quiet {S : Sys F K} {met : Int} {s : Sample} {p q : Ses F K × List Text} {name : Text} (h : Leaves (estOne S met s p name) q) : Quiet p.1 q.1 := by
  unfold estOne at h
  simp only [] at h
  by_cases hs : name ∈ p.2
  · rw [if_pos hs] at h
    rcases h with h | h | h <;> first | (injection h with h; subst h; exact Quiet.refl _) | cases h
  rw [if_neg hs] at h
  cases he : p.1.eqs.find (toKey .equations name) with
  | none =>
    rw [he] at h
    rcases h with h | h | h <;> first | (injection h with h; subst h; exact Quiet.refl _) | cases h
  | some e =>
    rw [he] at h
    simp only [] at h
    have hz : Quiet p.1 { p.1 with eqs := p.1.eqs.insert (toKey .equations name) { e with tests := List.replicate 20 S.g.zero } } :=
      ⟨rfl, rfl, rfl, rfl, rfl, rfl, rfl, fun _ h => insert_keeps h, fun _ _ => rfl, fun _ h => h, fun _ _ _ => rfl⟩
    by_cases hn : s.nb < 1
    · rw [if_pos hn] at h
      rcases h with h | h | h <;> first | (injection h with h; subst h; exact hz) | cases h
    rw [if_neg hn] at h
    cases hb : blockOf p.1.geqs name e with
    | none => rw [hb] at h; rcases h with h | h | h <;> cases h
    | some ms =>
      rw [hb] at h
      cases ho : s.start.difference S.g.first with
      | err =>
        rw [ho] at h
        rcases h with h | h | h <;> first | (injection h with h; subst h; exact hz) | cases h
      | ub => rw [ho] at h; rcases h with h | h | h <;> cases h
      | ok off =>
        rw [ho] at h
        simp only [] at h
        rcases hr : S.g.est ⟨ms.map (·.1), ms.map (·.2), cut [',', ';'] e.instruments, if met < 0 then e.method else met, s⟩ p.1.scls p.1.gvars with ⟨scls, - | r⟩
        · simp only [hr] at h
          rcases h with h | h | h
          · cases h
          · injection h with h
            subst h
            exact ⟨rfl, rfl, rfl, rfl, rfl, rfl, rfl, fun _ h => insert_keeps h, fun _ _ => rfl, fun _ h => h, fun hs k _ => by
              rw [written_none (by exact hs)]⟩
          · cases h
        · simp only [hr] at h
          split at h
          · rename_i st hv
            rcases h with h | h | h
            · injection h with h
              subst h
              refine ⟨rfl, rfl, rfl, rfl, rfl, rfl, rfl, fun k hk => saveAll_keeps _ _ _ _ hv k (insert_keeps hk), fun k hk => ?_, fun k hk => (List.mem_filter.mp hk).1, fun hs k hk => ?_⟩
              · exact (EstSave.saveAll_vars _ _ _ _ hv).2 k fun i hi b hb e => hk ⟨0 + i, b, hb, e⟩
              · refine ((EstSave.saveAll_scls _ _ _ _ hv).2 k fun i hi t ht e => hk ⟨0 + i, t, ht, e⟩).trans ?_
                show (written scls _).gscls.find k = _
                rw [written_none (by exact hs)]
            · cases h
            · cases h
          · rcases h with h | h | h <;> cases h

theorem loop_quiet {S : Sys F K} {met : Int} {s : Sample} : ∀ (ns : List Text) (p q : Ses F K × List Text), Leaves (loop (estOne S met s) ns p) q → Quiet p.1 q.1
  | [], p, q, h => by
    rcases h with h | h | h <;> first | (injection h with h; subst h; exact Quiet.refl _) | cases h
  | n :: ns, p, q, h => by
    unfold loop at h
    cases ho : estOne S met s p n with
    | done p' =>
      rw [ho] at h
      exact (estOne_quiet (.inl ho)).trans (loop_quiet ns p' q h)
    | failed p' =>
      rw [ho] at h
      rcases h with h | h | h <;> first | (injection h with h; subst h; exact estOne_quiet (.inr (.inl ho))) | cases h
    | thrown p' =>
      rw [ho] at h
      rcases h with h | h | h <;> first | (injection h with h; subst h; exact estOne_quiet (.inr (.inr ho))) | cases h
    | ub => rw [ho] at h; rcases h with h | h | h <;> cases h

theorem estimate_quiet {S : Sys F K} {s s' : Ses F K} (hk : ∀ n ∈ s.names, toKey .equations n = n) (h : Leaves (estimate S s) s') : Quiet s s' := by
  unfold estimate at h
  simp only [] at h
  have h0 : Quiet s { s with done := false } := ⟨rfl, rfl, rfl, rfl, rfl, rfl, rfl, fun _ h => h, fun _ _ => rfl, fun _ h => h, fun _ _ _ => rfl⟩
  have h1 : Quiet s { s with done := false, eqs := s.names.foldl (setParams s) s.eqs } := by
    refine ⟨rfl, rfl, rfl, rfl, rfl, rfl, rfl, fun k ⟨e, he⟩ => ?_, fun _ _ => rfl, fun _ h => h, fun _ _ _ => rfl⟩
    simp only []
    rw [setAll_find s _ _ hk, he]
    split
    · exact ⟨_, rfl⟩
    · exact ⟨e, rfl⟩
  split at h
  · rcases h with h | h | h <;> first | (injection h with h; subst h; exact h0) | cases h
  split at h
  · rcases h with h | h | h <;> first | (injection h with h; subst h; exact h1) | cases h
  have hd : ∀ t : Ses F K, Quiet t { t with done := true } := fun t => ⟨rfl, rfl, rfl, rfl, rfl, rfl, rfl, fun _ h => h, fun _ _ => rfl, fun _ h => h, fun _ _ _ => rfl⟩
  cases ho : loop (estOne S s.method s.sample) s.names ({ s with done := false, eqs := s.names.foldl (setParams s) s.eqs }, []) with
  | done q =>
    obtain ⟨t, l⟩ := q
    rw [ho] at h
    simp only [] at h
    have := h1.trans (loop_quiet _ _ _ (.inl ho))
    split at h <;> rcases h with h | h | h <;> first | (injection h with h; subst h; exact this.trans (hd _)) | cases h
  | failed q =>
    rw [ho] at h
    have := h1.trans (loop_quiet _ _ _ (.inr (.inl ho)))
    rcases h with h | h | h <;> first | (injection h with h; subst h; exact this) | cases h
  | thrown q =>
    rw [ho] at h
    have := h1.trans (loop_quiet _ _ _ (.inr (.inr ho)))
    rcases h with h | h | h <;> first | (injection h with h; subst h; exact this) | cases h
  | ub => rw [ho] at h; rcases h with h | h | h <;> cases h

end Iode.EstEdit
