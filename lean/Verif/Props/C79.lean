import Verif.Lemmas.EstEdit
import Mathlib.Data.List.Dedup

/-!
# C79: a session that edits and estimates equations leaves the workspaces alone until it is saved

The names of the block, the current equation and the text of the block agree whatever is done.
Without `save` the equations of the workspace stay, and of the scalars and variables only results of estimations and coefficients that did not exist are new.
`save` brings the equations of the block with the session's texts and parameters into the workspace.

Not so: an estimation takes the LECs of the workspace, not of the session, and puts them into the session.
-/
namespace Iode.EstEdit

open Iode.Args (Text pieces)
open DataCmd (Out loop)
open EstSave (Eqn Scl Eng Found Req St savedMethod testsOf saveAll blockOf cut shownNames shown SclsSaved VarsSaved)

variable {F K : Type}

/-! ## The block -/

/-- What holds in a session at any time: the equations of the block exist in it and their names are what its text says; the current equation is one of them. -/
structure Good (s : Ses F K) : Prop where
  valid : ∀ n ∈ s.names, checkName .equations n = true
  here : ∀ n ∈ s.names, ∃ e, s.eqs.find n = some e
  once : s.names.Nodup
  text : pieces [' ', ',', ';'] s.block = s.names
  current : ∀ n, s.cur = some n → n ∈ s.names
  only : s.cur = none → s.names = []

/-- The operations one after the other: each may throw. -/
inductive Steps (S : Sys F K) : Ses F K → List Op → Ses F K → Prop
  | nil (s : Ses F K) : Steps S s [] s
  | cons {s t u : Ses F K} {o : Op} {os : List Op} (h : Leaves (step S s o) t) (hs : Steps S t os u) : Steps S s (o :: os) u

theorem Good.key {s : Ses F K} (h : Good s) {n : Text} (hn : n ∈ s.names) : toKey .equations n = n := toKey_of_checkName (h.valid n hn)

theorem good_quiet {s s' : Ses F K} (hg : Good s) (h : Quiet s s') : Good s' := by
  obtain ⟨a, b, c, d, e, f⟩ := hg
  refine ⟨?_, ?_, ?_, ?_, ?_, ?_⟩
  · rw [h.names]; exact a
  · rw [h.names]; exact fun n hn => h.keys n (b n hn)
  · rw [h.names]; exact c
  · rw [h.names, h.block]; exact d
  · rw [h.names, h.cur]; exact e
  · rw [h.names, h.cur]; exact f

theorem good_of {s s' : Ses F K} (hg : Good s) (h1 : s'.names = s.names) (h2 : s'.cur = s.cur) (h3 : s'.block = s.block) (h4 : ∀ k, (∃ e, s.eqs.find k = some e) → ∃ e, s'.eqs.find k = some e) : Good s' := by
  obtain ⟨a, b, c, d, e, f⟩ := hg
  refine ⟨?_, ?_, ?_, ?_, ?_, ?_⟩
  · rw [h1]; exact a
  · rw [h1]; exact fun n hn => h4 n (b n hn)
  · rw [h1]; exact c
  · rw [h1, h3]; exact d
  · rw [h1, h2]; exact e
  · rw [h1, h2]; exact f

theorem good_empty {s : Ses F K} (h1 : s.names = []) (h2 : s.cur = none) (h3 : s.block = []) : Good s := by
  refine ⟨?_, ?_, ?_, ?_, ?_, fun _ => h1⟩
  · rw [h1]; simp
  · rw [h1]; simp
  · rw [h1]; simp
  · rw [h1, h3]; exact Args.pieces_nil
  · rw [h2]; simp

/-- The names of a block: what the filter gives, with the current equation. -/
def Members (ns : List Text) (cur : Text) (n : Text) : Prop := n ∈ ns ∨ n = cur ∧ cur ≠ []

/-- A block that is taken: its names, its text, its current equation; the session keeps the equations it has, takes the others from the workspace, and makes
    `name := 0` of names that are not there either. The workspaces stay. -/
theorem C79_block {S : Sys F K} {s s' : Ses F K} {b c : Text} (hf : ∀ ns, S.filter s.geqs b = some ns → ns.Nodup) (h : setBlock S s b c = .done s') :
    Good s' ∧ ∃ ns, S.filter s.geqs b = some ns ∧ (∀ n, n ∈ s'.names ↔ Members ns c n) ∧ (c ≠ [] → s'.cur = some c) ∧ (c = [] → s'.cur = ns.head?) ∧
      (∀ k, s'.eqs.find k = (s.eqs.find k <|> if k ∈ s'.names then some (match s.geqs.find k with
        | some e => { e with method := if 0 ≤ e.method ∧ e.method < 5 then e.method else 0 }
        | none => ⟨k, k ++ " := 0".toList, 3, none, [], [], [], S.g.today, List.replicate 20 S.g.zero⟩) else none)) ∧
      s'.geqs = s.geqs ∧ s'.gscls = s.gscls ∧ s'.gvars = s.gvars ∧ s'.scls = s.scls ∧ s'.shared = s.shared := by
  unfold setBlock at h
  simp only [] at h
  cases hns : S.filter s.geqs b with
  | none => rw [hns] at h; cases h
  | some ns =>
    rw [hns] at h
    simp only [] at h
    generalize hns' : (if c ≠ [] ∧ c ∉ ns then put c ns else ns) = ns' at h
    have hmem : ∀ n, n ∈ ns' ↔ Members ns c n := by
      intro n
      rw [← hns']
      unfold Members
      split
      · rename_i hc
        rw [put_mem]
        constructor
        · rintro (e | e)
          · exact .inr ⟨e, hc.1⟩
          · exact .inl e
        · rintro (e | ⟨e, -⟩)
          · exact .inr e
          · exact .inl e
      · rename_i hc
        constructor
        · exact .inl
        · rintro (e | ⟨e, e'⟩)
          · exact e
          · subst e
            by_contra hn
            exact hc ⟨e', hn⟩
    have hnd : ns'.Nodup := by
      rw [← hns']
      split
      · rename_i hc
        exact put_nodup hc.2 (hf ns hns)
      · exact hf ns hns
    by_cases hv : ns'.all (checkName .equations) = true
    swap
    · rw [if_neg hv] at h; cases h
    rw [if_pos hv] at h
    injection h with h
    have hv' : ∀ n ∈ ns', checkName .equations n = true := List.all_eq_true.mp hv
    have hkey : ∀ n ∈ ns', toKey .equations n = n := fun n hn => toKey_of_checkName (hv' n hn)
    have hfind := addEqs_find S s.geqs ns' s.eqs hkey
    have hcur : c ≠ [] → c ∈ ns' := fun hc => (hmem c).mpr (.inr ⟨rfl, hc⟩)
    subst h
    refine ⟨⟨hv', fun n hn => ?_, hnd, pieces_join hv', fun n hn => ?_, fun hn => ?_⟩, ns, rfl, hmem, fun hc => ?_, fun hc => ?_, fun k => ?_, rfl, rfl, rfl, rfl, rfl⟩
    · simp only [] at hn ⊢
      rw [hfind, if_pos hn]
      cases s.eqs.find n with
      | some e => exact ⟨e, rfl⟩
      | none => exact ⟨_, rfl⟩
    · simp only [] at hn ⊢
      split at hn
      · cases hn
      split at hn
      · exact List.mem_of_mem_head? hn
      · rename_i hc
        injection hn with hn
        exact hn ▸ hcur hc
    · simp only [] at hn ⊢
      by_contra hne
      rw [if_neg hne] at hn
      split at hn
      · rw [List.head?_eq_none_iff] at hn
        exact hne hn
      · cases hn
    · simp only []
      rw [if_neg (List.ne_nil_of_mem (hcur hc)), if_neg hc]
    · simp only []
      have : ns' = ns := by rw [← hns', if_neg (by simp [hc])]
      rw [this, if_pos hc]
      split
      · rename_i he
        rw [he]; rfl
      · rfl
    · simp only []
      rw [hfind]
      split
      · cases s.geqs.find k <;> rfl
      · rfl

/-- A block that is refused is empty. -/
theorem C79_block_refused {S : Sys F K} {s s' : Ses F K} {b c : Text} (h : setBlock S s b c = .thrown s') :
    s' = { s with block := [], names := [], cur := none } := by
  unfold setBlock at h
  simp only [] at h
  split at h
  · injection h with h; exact h.symm
  · rename_i ns _; generalize (if c ≠ [] ∧ c ∉ ns then put c ns else ns) = ns' at h
    split at h
    · cases h
    · injection h with h; exact h.symm

/-- The invariant, whatever is done and whatever is thrown. -/
theorem C79_invariant {S : Sys F K} (hf : ∀ m b ns, S.filter m b = some ns → ns.Nodup) : ∀ {os : List Op} {s s' : Ses F K}, Steps S s os s' → Good s → Good s'
  | [], _, _, .nil _, hg => hg
  | o :: os, s, s', .cons (t := t) h hs, hg => by
    refine C79_invariant hf hs ?_
    cases o with
    | block b c =>
      rcases h with h | h | h
      · exact (C79_block (fun ns => hf _ _ ns) h).1
      · have h : setBlock S s b c = .failed t := h
        unfold setBlock at h
        simp only [] at h
        split at h
        · cases h
        · rename_i ns _; generalize (if c ≠ [] ∧ c ∉ ns then put c ns else ns) = ns' at h
          split at h <;> cases h
      · rw [C79_block_refused h]
        exact good_empty rfl rfl rfl
    | scalars =>
      have h : Leaves (updateScalars S s) t := h
      unfold updateScalars at h
      split at h <;> rcases h with h | h | h <;> first | (injection h with h; subst h; exact good_of hg rfl rfl rfl fun _ h => h) | cases h
    | current l c =>
      have h : Leaves (updateCurrent S s l c) t := h
      unfold updateCurrent at h
      split at h
      · rcases h with h | h | h <;> first | (injection h with h; subst h; exact hg) | cases h
      split at h
      · rcases h with h | h | h <;> first | (injection h with h; subst h; exact hg) | cases h
      split at h
      · rcases h with h | h | h <;> first | (injection h with h; subst h; exact hg) | cases h
      · rcases h with h | h | h <;> first | (injection h with h; subst h; exact good_of hg rfl rfl rfl fun _ h => insert_keeps h) | cases h
    | method m => rcases h with h | h | h <;> first | (injection h with h; subst h; exact good_of hg rfl rfl rfl fun _ h => h) | cases h
    | instruments x => rcases h with h | h | h <;> first | (injection h with h; subst h; exact good_of hg rfl rfl rfl fun _ h => h) | cases h
    | sample x => rcases h with h | h | h <;> first | (injection h with h; subst h; exact good_of hg rfl rfl rfl fun _ h => h) | cases h
    | estimate => exact good_quiet hg (estimate_quiet (fun n hn => hg.key hn) h)
    | save a b =>
      have h : Leaves (save S s a b).1 t := h
      unfold save at h
      split at h
      · rcases h with h | h | h <;> first | (injection h with h; subst h; exact hg) | cases h
      · rcases h with h | h | h <;> cases h
      · split at h
        all_goals rcases h with h | h | h <;> first | (injection h with h; subst h; exact good_of hg rfl rfl rfl fun _ h => h) | cases h

/-- A new session meets it. -/
theorem C79_begin (geqs : SMap (Eqn F)) (gscls : SMap (Scl K)) (gvars : SMap (List (Option K))) (smp : Sample) :
    Good (begin geqs gscls gvars smp) ∧ (begin geqs gscls gvars smp).shared = [] ∧ (begin geqs gscls gvars smp).done = false := ⟨good_empty rfl rfl rfl, rfl, rfl⟩

/-! ## Scalars -/

theorem create_find (S : Sys F K) : ∀ (cs : List Text) (gs : SMap (Scl K)) (k : Text), (create S gs cs).find k = (gs.find k <|> if k ∈ cs then some ⟨S.init, S.g.one, none⟩ else none)
  | [], gs, k => by simp [create]
  | c :: cs, gs, k => by
    have e : create S gs (c :: cs) = create S (match gs.find c with | some _ => gs | none => gs.insert c ⟨S.init, S.g.one, none⟩) cs := rfl
    rw [e, create_find S cs]
    cases hc : gs.find c with
    | some v =>
      simp only []
      by_cases hk : k = c
      · subst hk; rw [hc]; rfl
      · simp [hk]
    | none =>
      simp only []
      rw [SMap.find_insert]
      by_cases hk : k = c
      · subst hk; rw [hc]; simp
      · simp [hk]

theorem takeAll_find (S : Sys F K) (gs : SMap (Scl K)) : ∀ (cs : List Text) (m : SMap (Scl K)) (k : Text),
    (cs.foldl (takeIn S gs) m).find k = (m.find k <|> if k ∈ cs then some ((gs.find k).getD ⟨S.nought, S.g.one, none⟩) else none)
  | [], m, k => by simp
  | c :: cs, m, k => by
    rw [List.foldl_cons, takeAll_find S gs cs]
    unfold takeIn
    cases hc : m.find c with
    | some v =>
      simp only []
      by_cases hk : k = c
      · subst hk; rw [hc]; rfl
      · simp [hk]
    | none =>
      simp only []
      rw [SMap.find_insert]
      by_cases hk : k = c
      · subst hk; rw [hc]
        cases gs.find k <;> simp
      · simp [hk]

theorem eraseAll_find : ∀ (cs : List Text) (m : SMap (Scl K)) (k : Text), (cs.foldl (fun m c => m.erase c) m).find k = if k ∈ cs then none else m.find k
  | [], m, k => by simp
  | c :: cs, m, k => by
    rw [List.foldl_cons, eraseAll_find cs, SMap.find_erase]
    by_cases hk : k = c
    · subst hk; simp
    · simp [hk]

/-- The equation uses the coefficient. -/
def Uses (S : Sys F K) (e : Eqn F) (k : Text) : Prop := ∃ cs, S.coefs e.endo e.lec = some cs ∧ k ∈ cs

theorem gather_some (S : Sys F K) : ∀ {eqs : SMap (Eqn F)} {gs gs' : SMap (Scl K)} {cs : List Text}, gather S eqs gs = (gs', some cs) →
    (∀ k, k ∈ cs ↔ ∃ p ∈ eqs, Uses S p.2 k) ∧ (∀ p ∈ eqs, (S.coefs p.2.endo p.2.lec).isSome) ∧ ∀ k, gs'.find k = (gs.find k <|> if k ∈ cs then some ⟨S.init, S.g.one, none⟩ else none)
  | [], gs, gs', cs, h => by
    unfold gather at h
    injection h with h1 h2
    injection h2 with h2
    subst h1 h2
    exact ⟨by simp, by simp, by simp⟩
  | (n, e) :: l, gs, gs', cs, h => by
    unfold gather at h
    cases hc : S.coefs e.endo e.lec with
    | none => rw [hc] at h; cases h
    | some ds =>
      rw [hc] at h
      simp only [] at h
      rcases hr : gather S l (create S gs ds) with ⟨gs1, - | cs1⟩
      · rw [hr] at h; cases h
      · rw [hr] at h
        injection h with h1 h2
        injection h2 with h2
        subst h1 h2
        obtain ⟨a, b, c⟩ := gather_some S hr
        refine ⟨fun k => ?_, fun p hp => ?_, fun k => ?_⟩
        · simp only [List.mem_append, a]
          constructor
          · rintro (h | ⟨p, hp, h⟩)
            · exact ⟨_, .head _, ds, hc, h⟩
            · exact ⟨p, by simp [hp], h⟩
          · rintro ⟨p, hp, h⟩
            rcases List.mem_cons.mp hp with rfl | hp
            · obtain ⟨cs, h1, h2⟩ := h
              rw [hc] at h1
              injection h1 with h1
              exact .inl (h1 ▸ h2)
            · exact .inr ⟨p, hp, h⟩
        · rcases List.mem_cons.mp hp with rfl | hp
          · rw [hc]; rfl
          · exact b p hp
        · rw [c, create_find]
          cases gs.find k with
          | some v => rfl
          | none =>
            by_cases h1 : k ∈ ds
            · simp [h1]
            · simp [h1]

theorem gather_kept (S : Sys F K) : ∀ (eqs : SMap (Eqn F)) (gs : SMap (Scl K)) (k : Text), (gather S eqs gs).1.find k = gs.find k ∨ gs.find k = none ∧ (gather S eqs gs).1.find k = some ⟨S.init, S.g.one, none⟩
  | [], gs, k => .inl rfl
  | (n, e) :: l, gs, k => by
    unfold gather
    cases hc : S.coefs e.endo e.lec with
    | none => exact .inl rfl
    | some ds =>
      simp only []
      have hcr := create_find S ds gs k
      rcases gather_kept S l (create S gs ds) k with h | ⟨h1, h2⟩
      · rw [h, hcr]
        cases gs.find k with
        | some v => exact .inl rfl
        | none =>
          split
          · exact .inr ⟨rfl, rfl⟩
          · exact .inl rfl
      · rw [h2]
        refine .inr ⟨?_, rfl⟩
        rw [hcr] at h1
        cases hg : gs.find k with
        | none => rfl
        | some v => rw [hg] at h1; cases h1

theorem outside_mem (S : Sys F K) (s : Ses F K) (k : Text) : k ∈ outside S s ↔ ∃ p ∈ s.eqs, p.1 ∉ s.names ∧ Uses S p.2 k := by
  unfold outside Uses
  rw [List.mem_flatMap]
  constructor
  · rintro ⟨p, hp, hk⟩
    rw [List.mem_filter] at hp
    refine ⟨p, hp.1, by simpa using hp.2, ?_⟩
    cases hc : S.coefs p.2.endo p.2.lec with
    | none => rw [hc] at hk; cases hk
    | some cs => rw [hc] at hk; exact ⟨cs, rfl, hk⟩
  · rintro ⟨p, hp, hn, cs, hc, hk⟩
    exact ⟨p, List.mem_filter.mpr ⟨hp, by simpa using hn⟩, by rw [hc]; exact hk⟩

/-- The scalars of the session: those it had and the workspace's for each coefficient of its equations, but none that an equation outside the block uses.
    The workspace has a scalar for each coefficient: those it had, and the initial value for the others. -/
theorem C79_scalars {S : Sys F K} {s s' : Ses F K} (h : updateScalars S s = .done s') :
    s'.geqs = s.geqs ∧ s'.gvars = s.gvars ∧ s'.eqs = s.eqs ∧ s'.names = s.names ∧ s'.cur = s.cur ∧ s'.block = s.block ∧
    ∀ k, (s'.gscls.find k = s.gscls.find k ∨ s.gscls.find k = none ∧ (∃ p ∈ s.eqs, Uses S p.2 k) ∧ s'.gscls.find k = some ⟨S.init, S.g.one, none⟩) ∧
      ((∃ p ∈ s.eqs, Uses S p.2 k) → ∃ v, s'.gscls.find k = some v) ∧
      ((∃ p ∈ s.eqs, p.1 ∉ s.names ∧ Uses S p.2 k) → s'.scls.find k = none) ∧
      (¬ (∃ p ∈ s.eqs, p.1 ∉ s.names ∧ Uses S p.2 k) → (∃ p ∈ s.eqs, Uses S p.2 k) → s'.scls.find k = (s.scls.find k <|> s'.gscls.find k)) ∧
      (¬ (∃ p ∈ s.eqs, Uses S p.2 k) → s'.scls.find k = s.scls.find k) := by
  unfold updateScalars at h
  rcases hr : gather S s.eqs s.gscls with ⟨gs, - | cs⟩
  · rw [hr] at h; cases h
  rw [hr] at h
  simp only [] at h
  injection h with h
  subst h
  obtain ⟨a, -, c⟩ := gather_some S hr
  refine ⟨rfl, rfl, rfl, rfl, rfl, rfl, fun k => ?_⟩
  simp only []
  rw [eraseAll_find, takeAll_find, c k]
  by_cases hu : ∃ p ∈ s.eqs, Uses S p.2 k
  · rw [if_pos ((a k).mpr hu), if_pos ((a k).mpr hu)]
    refine ⟨?_, fun _ => ?_, fun h => if_pos ((outside_mem S s k).mpr h), fun h _ => ?_, fun h => absurd hu h⟩
    · cases s.gscls.find k with
      | some v => exact .inl rfl
      | none => exact .inr ⟨rfl, hu, rfl⟩
    · cases s.gscls.find k with
      | some v => exact ⟨v, rfl⟩
      | none => exact ⟨_, rfl⟩
    · rw [if_neg fun h' => h ((outside_mem S s k).mp h')]
      cases s.scls.find k with
      | some v => rfl
      | none => cases s.gscls.find k <;> rfl
  · have ho : ¬ ∃ p ∈ s.eqs, p.1 ∉ s.names ∧ Uses S p.2 k := fun ⟨p, h1, _, h2⟩ => hu ⟨p, h1, h2⟩
    rw [if_neg fun h' => hu ((a k).mp h'), if_neg fun h' => hu ((a k).mp h'), if_neg fun h' => ho ((outside_mem S s k).mp h')]
    refine ⟨?_, fun h => absurd h hu, fun h => absurd h ho, fun _ h => absurd h hu, fun _ => ?_⟩
    · cases s.gscls.find k <;> exact .inl rfl
    · cases s.scls.find k <;> rfl

/-! ## The current equation -/

/-- Only the LEC and the comment of the current equation change; a LEC that does not compile is not taken, an empty one is refused. -/
theorem C79_current {S : Sys F K} {s : Ses F K} {l c : Text} (hg : Good s) :
    (l = [] → updateCurrent S s l c = .thrown s) ∧
    (l ≠ [] → s.cur = none → updateCurrent S s l c = .done s) ∧
    ∀ n, l ≠ [] → s.cur = some n → ∃ e s', s.eqs.find n = some e ∧ updateCurrent S s l c = .done s' ∧ s' = { s with eqs := s'.eqs } ∧
      s'.eqs.find n = some { e with lec := if (S.coefs e.endo l).isSome then l else e.lec, comment := c } ∧ ∀ k, k ≠ n → s'.eqs.find k = s.eqs.find k := by
  refine ⟨fun h => by unfold updateCurrent; rw [if_pos h], fun h hc => by unfold updateCurrent; rw [if_neg h, hc], fun n h hc => ?_⟩
  have hn := hg.current n hc
  obtain ⟨e, he⟩ := hg.here n hn
  refine ⟨e, { s with eqs := s.eqs.insert n { setLec S e l with comment := c } }, he, ?_, rfl, ?_, fun k hk => ?_⟩
  · unfold updateCurrent
    rw [if_neg h, hc]
    simp only []
    rw [hg.key hn, he]
  · simp only []
    rw [SMap.find_insert_self]
    unfold setLec
    split <;> rfl
  · simp only []
    rw [SMap.find_insert, if_neg hk]

/-! ## Without saving -/

/-- Whatever is done in a session that is not saved and has not been: the equations of the workspace stay; a scalar that is no result of an estimation stays or is new with its initial value;
    a variable that is no result stays. -/
theorem C79_unsaved {S : Sys F K} (hf : ∀ m b ns, S.filter m b = some ns → ns.Nodup) : ∀ {os : List Op} {s s' : Ses F K}, Steps S s os s' → Good s → s.shared = [] → (∀ a b, Op.save a b ∉ os) →
    s'.geqs = s.geqs ∧ s'.shared = [] ∧ (∀ k, ¬ IsResultVar k → s'.gvars.find k = s.gvars.find k) ∧
    ∀ k, ¬ IsResult k → s'.gscls.find k = s.gscls.find k ∨ s.gscls.find k = none ∧ s'.gscls.find k = some ⟨S.init, S.g.one, none⟩
  | [], _, _, .nil _, _, h0, _ => ⟨rfl, h0, fun _ _ => rfl, fun _ _ => .inl rfl⟩
  | o :: os, s, s', .cons (t := t) h hs, hg, h0, hn => by
    have hgt : Good t := C79_invariant hf (.cons h (.nil t)) hg
    have key : t.geqs = s.geqs ∧ t.shared = [] ∧ (∀ k, ¬ IsResultVar k → t.gvars.find k = s.gvars.find k) ∧
        ∀ k, ¬ IsResult k → t.gscls.find k = s.gscls.find k ∨ s.gscls.find k = none ∧ t.gscls.find k = some ⟨S.init, S.g.one, none⟩ := by
      have same : t.geqs = s.geqs → t.shared = s.shared → t.gvars = s.gvars → t.gscls = s.gscls → _ := fun a b c d =>
        (⟨a, by rw [b, h0], fun k _ => by rw [c], fun k _ => .inl (by rw [d])⟩ : t.geqs = s.geqs ∧ t.shared = [] ∧ (∀ k, ¬ IsResultVar k → t.gvars.find k = s.gvars.find k) ∧
        ∀ k, ¬ IsResult k → t.gscls.find k = s.gscls.find k ∨ s.gscls.find k = none ∧ t.gscls.find k = some ⟨S.init, S.g.one, none⟩)
      cases o with
      | block b c =>
        have h : Leaves (setBlock S s b c) t := h
        unfold setBlock at h
        simp only [] at h
        split at h
        · rcases h with h | h | h <;> first | (injection h with h; subst h; exact same rfl rfl rfl rfl) | cases h
        · rename_i ns _; generalize (if c ≠ [] ∧ c ∉ ns then put c ns else ns) = ns' at h
          split at h <;> rcases h with h | h | h <;> first | (injection h with h; subst h; exact same rfl rfl rfl rfl) | cases h
      | scalars =>
        have h : Leaves (updateScalars S s) t := h
        unfold updateScalars at h
        have hk := gather_kept S s.eqs s.gscls
        rcases hr : gather S s.eqs s.gscls with ⟨gs, - | cs⟩
        · rw [hr] at h hk
          rcases h with h | h | h <;> first | (injection h with h; subst h; exact ⟨rfl, h0, fun _ _ => rfl, fun k _ => hk k⟩) | cases h
        · rw [hr] at h hk
          rcases h with h | h | h <;> first | (injection h with h; subst h; exact ⟨rfl, by simp [h0], fun _ _ => rfl, fun k _ => hk k⟩) | cases h
      | current l c =>
        have h : Leaves (updateCurrent S s l c) t := h
        unfold updateCurrent at h
        split at h
        · rcases h with h | h | h <;> first | (injection h with h; subst h; exact same rfl rfl rfl rfl) | cases h
        split at h
        · rcases h with h | h | h <;> first | (injection h with h; subst h; exact same rfl rfl rfl rfl) | cases h
        split at h
        · rcases h with h | h | h <;> first | (injection h with h; subst h; exact same rfl rfl rfl rfl) | cases h
        · rcases h with h | h | h <;> first | (injection h with h; subst h; exact same rfl rfl rfl rfl) | cases h
      | method m => rcases h with h | h | h <;> first | (injection h with h; subst h; exact same rfl rfl rfl rfl) | cases h
      | instruments x => rcases h with h | h | h <;> first | (injection h with h; subst h; exact same rfl rfl rfl rfl) | cases h
      | sample x => rcases h with h | h | h <;> first | (injection h with h; subst h; exact same rfl rfl rfl rfl) | cases h
      | estimate =>
        have q := estimate_quiet (fun n hn => hg.key hn) h
        exact ⟨q.geqs, q.none h0, q.vars, fun k hk => .inl (q.scls h0 k hk)⟩
      | save a b => exact absurd (List.mem_cons_self ..) (hn a b)
    obtain ⟨a1, a2, a3, a4⟩ := key
    obtain ⟨b1, b2, b3, b4⟩ := C79_unsaved hf hs hgt a2 fun a b hm => hn a b (by simp [hm])
    refine ⟨b1.trans a1, b2, fun k hk => (b3 k hk).trans (a3 k hk), fun k hk => ?_⟩
    rcases b4 k hk with h1 | ⟨h1, h2⟩
    · rw [h1]; exact a4 k hk
    · right
      refine ⟨?_, h2⟩
      rcases a4 k hk with h3 | ⟨h3, -⟩
      · rw [← h3]; exact h1
      · exact h3

/-! ## The estimation -/

theorem loop_seen {S : Sys F K} {met : Int} {x : Sample} : ∀ (ns : List Text) (p : Ses F K × List Text), (∀ n ∈ ns, n ∈ p.2) → loop (estOne S met x) ns p = .done p
  | [], p, _ => rfl
  | n :: ns, p, h => by
    have : estOne S met x p n = .done p := by
      unfold estOne
      simp only []
      rw [if_pos (h n (by simp))]
    unfold loop
    rw [this]
    exact loop_seen ns p fun m hm => h m (by simp [hm])

theorem plain_names {s : Ses F K} (hg : Good s) : ∀ w ∈ s.names, ' ' ∉ w := fun w hw h => (valid_single (hg.valid w hw)).1 _ h (by simp)

/-- What an estimation has asked for and found. -/
structure Asked (S : Sys F K) (s : Ses F K) (ls : List Text) (off : Int) (scls : SMap (Scl K)) (r : Found F K) : Prop where
  lecs : ls.length = s.names.length
  start : s.sample.start.difference S.g.first = .ok off
  found : S.g.est ⟨s.names, ls, pieces [',', ';'] s.instruments, s.method, s.sample⟩ s.scls s.gvars = (scls, some r)

/-- An estimation that succeeds: it asks once for all equations of the block, with the session's scalars, method, instruments and sample, and **the LECs of the workspace**.
    The equations of the block have the results; all others stay. -/
theorem C79_estimated {S : Sys F K} {s s' : Ses F K} (hg : Good s) (h : estimate S s = .done s' ∨ estimate S s = .thrown s') (hd : s'.done = true) :
    ∃ ls off scls r, Asked S s ls off scls r ∧
      (∀ (i : Nat) n, s.names[i]? = some n → ∃ e l, s.eqs.find n = some e ∧ (s.geqs.find n).map (·.lec) = some l ∧ ls[i]? = some l ∧
        s'.eqs.find n = some { e with lec := l, method := if 0 ≤ s.method ∧ s.method < 5 then s.method else 0, block := s.block, instruments := s.instruments, sample := some s.sample, date := S.g.today, tests := (List.range 11).map (r.test i) ++ S.g.rest }) ∧
      (∀ k, k ∉ s.names → s'.eqs.find k = s.eqs.find k) ∧ s'.scls = scls ∧ (s.shared = [] → SclsSaved S.g s.sample.nb.toNat r s.names.length s.gscls s'.gscls) ∧
      VarsSaved S.g off s.sample.nb.toNat r s.names.length s.gvars s'.gvars ∧ s'.geqs = s.geqs ∧ (estimate S s = .done s' ↔ r.nce = scls.length) := by
  have hk : ∀ n ∈ s.names, toKey .equations n = n := fun n hn => hg.key hn
  have hset := setAll_find s s.names s.eqs hk
  have hw := plain_names hg
  unfold estimate at h ⊢
  simp only [] at h ⊢
  have hany : ¬ (s.names.any fun n => (s.eqs.find (toKey .equations n)).isNone) = true := by
    intro ha
    rw [List.any_eq_true] at ha
    obtain ⟨n, hn, hx⟩ := ha
    obtain ⟨e, he⟩ := hg.here n hn
    rw [hk n hn, he] at hx
    cases hx
  rw [if_neg hany] at h ⊢
  by_cases hne : s.names = [] ∨ 5 ≤ s.method
  · rw [if_pos hne] at h
    rcases h with h | h
    · cases h
    · injection h with h
      subst h
      cases hd
  rw [if_neg hne] at h ⊢
  obtain ⟨n0, ns0, hnames⟩ : ∃ n ns, s.names = n :: ns := by
    cases hc : s.names with
    | nil => exact absurd (.inl hc) hne
    | cons n ns => exact ⟨n, ns, rfl⟩
  have hn0 : n0 ∈ s.names := by rw [hnames]; simp
  generalize hs1 : ({ s with done := false, eqs := s.names.foldl (setParams s) s.eqs } : Ses F K) = s1 at h ⊢
  have hfalse : s1.done = false := by rw [← hs1]
  -- one round
  have hout : loop (estOne S s.method s.sample) s.names (s1, []) = match estOne S s.method s.sample (s1, []) n0 with
      | .done p => loop (estOne S s.method s.sample) ns0 p
      | o => o := by
    rw [hnames, loop]
    cases estOne S s.method s.sample (s1, []) n0 <;> rfl
  obtain ⟨e0, he0⟩ := hg.here n0 hn0
  have he1 : s1.eqs.find n0 = some { e0 with method := s.method, block := s.block, instruments := s.instruments } := by
    rw [← hs1]
    simp only []
    rw [hset, if_pos hn0, he0]
    rfl
  have hcut : cut [' ', ',', ';'] s.block = s.names := by rw [EstSave.cut_pieces]; exact hg.text
  have hcase : (∃ p, estOne S s.method s.sample (s1, []) n0 = .done p) := by
    rw [hout] at h
    cases hc : estOne S s.method s.sample (s1, []) n0 with
    | done p => exact ⟨p, rfl⟩
    | failed p =>
      rw [hc] at h
      obtain ⟨t, l⟩ := p
      rcases h with h | h
      · injection h with h
        exfalso
        subst h
        unfold estOne at hc
        simp only [] at hc
        rw [if_neg (by simp), hk n0 hn0, he1] at hc
        simp only [] at hc
        split at hc
        · injection hc with hc
          injection hc with hc
          rw [← hc] at hd
          rw [hfalse] at hd
          cases hd
        split at hc
        · cases hc
        · split at hc
          · injection hc with hc
            injection hc with hc
            rw [← hc] at hd
            exact absurd (hfalse.symm.trans hd) (by decide)
          · split at hc <;> cases hc
        · cases hc
        · cases hc
      · cases h
    | thrown p =>
      rw [hc] at h
      obtain ⟨t, l⟩ := p
      rcases h with h | h
      · cases h
      · injection h with h
        exfalso
        subst h
        unfold estOne at hc
        simp only [] at hc
        rw [if_neg (by simp), hk n0 hn0, he1] at hc
        simp only [] at hc
        split at hc
        · cases hc
        split at hc
        · cases hc
        · split at hc
          · cases hc
          · split at hc <;> cases hc
        · injection hc with hc
          injection hc with hc
          rw [← hc] at hd
          rw [hfalse] at hd
          cases hd
        · cases hc
    | ub => rw [hc] at h; rcases h with h | h <;> cases h
  obtain ⟨p, hp⟩ := hcase
  have hp' := hp
  unfold estOne at hp
  simp only [] at hp
  rw [if_neg (by simp), hk n0 hn0, he1] at hp
  simp only [] at hp
  split at hp
  · cases hp
  have hmeth : (if s.method < 0 then s.method else s.method) = s.method := by split <;> rfl
  rw [hmeth] at hp
  split at hp
  · cases hp
  · rename_i ms off hb ho
    have hb' : EstSave.members s1.geqs s.names = some ms := by
      unfold blockOf at hb
      simp only [] at hb
      rw [hcut, if_neg (by rw [hnames]; simp)] at hb
      exact hb
    obtain ⟨m1, m2⟩ := EstSave.members_some hw hb'
    have hg1 : s1.geqs = s.geqs := by rw [← hs1]
    have hsc1 : s1.scls = s.scls := by rw [← hs1]
    have hv1 : s1.gvars = s.gvars := by rw [← hs1]
    have hgs1 : s1.gscls = s.gscls := by rw [← hs1]
    have hsh1 : s1.shared = s.shared := by rw [← hs1]
    rw [hg1] at m2
    have hmslen : ms.length = s.names.length := by rw [← m1]; simp
    split at hp
    · cases hp
    · rename_i scls r hr
      split at hp
      · rename_i st hv
        injection hp with hp
        rw [m1, EstSave.cut_pieces, hsc1, hv1] at hr
        rw [hp'] at hout
        simp only [] at hout
        have hkeys : ∀ q ∈ ms, toKey .equations q.1 = q.1 ∧ q.1 ∈ s.names := by
          intro q hq
          have : q.1 ∈ s.names := by rw [← m1]; exact List.mem_map.mpr ⟨q, hq, rfl⟩
          exact ⟨hk _ this, this⟩
        have hold : ∀ k, (s1.eqs.insert n0 { e0 with method := s.method, block := s.block, instruments := s.instruments, tests := List.replicate 20 S.g.zero }).find k =
            if k = n0 then some { e0 with method := s.method, block := s.block, instruments := s.instruments, tests := List.replicate 20 S.g.zero }
            else if k ∈ s.names then (s.eqs.find k).map fun e => { e with method := s.method, block := s.block, instruments := s.instruments } else s.eqs.find k := by
          intro k
          rw [SMap.find_insert, ← hs1]
          simp only []
          rw [hset]
        obtain ⟨f1, f2, f3⟩ := saveAll_found ms 0 _ st (fun q hq => by
          refine ⟨(hkeys q hq).1, ?_, ?_⟩
          · simp only []
            rw [SMap.mem_keys_iff, hold]
            split
            · exact ⟨_, rfl⟩
            · rw [if_pos (hkeys q hq).2]
              obtain ⟨e, he⟩ := hg.here _ (hkeys q hq).2
              rw [he]
              exact ⟨_, rfl⟩
          · simp only []
            rw [hold]
            split
            · exact ⟨_, rfl⟩
            · rw [if_pos (hkeys q hq).2]
              obtain ⟨e, he⟩ := hg.here _ (hkeys q hq).2
              rw [he]
              exact ⟨_, rfl⟩) (by rw [m1]; exact hg.once) hv
        rw [m1] at f1
        have hseen : loop (estOne S s.method s.sample) ns0 p = .done p := by
          refine loop_seen ns0 p fun n hn => ?_
          rw [← hp]
          simp only []
          rw [f1]
          simp [hnames, hn]
        rw [hseen] at hout
        rw [hout] at h ⊢
        rw [← hp] at h ⊢
        simp only [] at h ⊢
        have hscls : s'.scls = scls ∧ s'.gscls = st.scls ∧ s'.gvars = st.vars ∧ s'.eqs = st.eqs ∧ s'.geqs = s.geqs := by
          rcases h with h | h <;> split at h <;> first | (injection h with h; subst h; exact ⟨rfl, rfl, rfl, rfl, hg1⟩) | cases h
        obtain ⟨g1, g2, g3, g4, g5⟩ := hscls
        obtain ⟨q3, q4⟩ := EstSave.saveAll_scls ms 0 _ _ hv
        obtain ⟨q5, q6⟩ := EstSave.saveAll_vars ms 0 _ _ hv
        rw [hmslen] at q3 q4 q5 q6
        refine ⟨ms.map (·.2), off, scls, r, ⟨by simp [hmslen], ho, hr⟩, fun i n hi => ?_, fun k hk' => ?_, g1, fun h0 => ⟨fun i hi p hp => ?_, fun k hk' => ?_⟩, ⟨fun i hi => ?_, fun k hk' => ?_⟩, g5, ?_⟩
        · have hn : n ∈ s.names := List.mem_of_getElem? hi
          rw [← m1, List.getElem?_map] at hi
          cases hm : ms[i]? with
          | none => rw [hm] at hi; cases hi
          | some q =>
            obtain ⟨w, l⟩ := q
            rw [hm] at hi
            injection hi with hi
            simp only [] at hi
            subst hi
            obtain ⟨e, he⟩ := hg.here w hn
            obtain ⟨e', u1, u2⟩ := f2 i w l hm
            obtain ⟨e'', v1, v2⟩ := m2 (w, l) (List.mem_of_getElem? hm)
            simp only [] at v1 v2 u1
            rw [hk w hn] at v1
            refine ⟨e, l, he, by rw [v1]; exact congrArg some v2, by rw [List.getElem?_map, hm]; rfl, ?_⟩
            rw [g4, u2, Nat.zero_add]
            rw [hold] at u1
            by_cases hw0 : w = n0
            · rw [if_pos hw0] at u1
              injection u1 with u1
              subst hw0
              rw [he] at he0
              injection he0 with he0
              subst he0
              rw [← u1]
              rfl
            · rw [if_neg hw0, if_pos hn, he] at u1
              injection u1 with u1
              rw [← u1]
              rfl
        · rw [g4, f3 k (by rw [m1]; exact hk')]
          simp only []
          rw [hold, if_neg (by rintro rfl; exact hk' hn0), if_neg hk']
        · have := q3 i hi p (by rw [Nat.zero_add]; exact hp)
          rw [Nat.zero_add] at this
          rw [g2]
          exact this
        · rw [g2]
          refine (q4 k fun i hi t ht => by rw [Nat.zero_add]; exact hk' i hi t ht).trans ?_
          show (written scls _).gscls.find k = _
          rw [written_none (by exact hsh1.trans h0)]
          show s1.gscls.find k = _
          rw [hgs1]
        · have := fun p hp => q5 i hi p hp
          rw [Nat.zero_add] at this
          rw [g3]
          exact ⟨⟨_, this _ (.head _), EstSave.holds_onSample _ _ _ _⟩, ⟨_, this _ (.tail _ (.head _)), EstSave.holds_onSample _ _ _ _⟩, ⟨_, this _ (.tail _ (.tail _ (.head _))), EstSave.holds_onSample _ _ _ _⟩⟩
        · rw [g3]
          refine (q6 k fun i hi b hb => by rw [Nat.zero_add]; exact hk' i hi b hb).trans ?_
          show s1.gvars.find k = _
          rw [hv1]
        · constructor
          · intro hx
            split at hx
            · rename_i hc; exact hc
            · cases hx
          · intro hx
            have hc : r.nce = (written scls ({ s1 with eqs := s1.eqs.insert n0 { e0 with method := s.method, block := s.block, instruments := s.instruments, tests := List.replicate 20 S.g.zero } } : Ses F K)).scls.length := hx
            rcases h with h | h
            · exact h
            · split at h
              · cases h
              · rename_i hc'
                exact absurd hc hc'
      · cases hp
  · cases hp
  · cases hp

/-- If an equation of the block is not in the workspace, the estimation frees the names of the block twice. -/
theorem C79_new_undefined {S : Sys F K} {s : Ses F K} {n : Text} (hg : Good s) (hn : n ∈ s.names) (hw : s.geqs.find n = none) (hm : s.method < 5) (hs : 1 ≤ s.sample.nb) : estimate S s = .ub := by
  have hk : ∀ n ∈ s.names, toKey .equations n = n := fun n hn => hg.key hn
  unfold estimate
  simp only []
  have hany : ¬ (s.names.any fun n => (s.eqs.find (toKey .equations n)).isNone) = true := by
    intro ha
    rw [List.any_eq_true] at ha
    obtain ⟨n, hn, hx⟩ := ha
    obtain ⟨e, he⟩ := hg.here n hn
    rw [hk n hn, he] at hx
    cases hx
  rw [if_neg hany, if_neg (by rintro (h | h); · rw [h] at hn; cases hn
                              · omega)]
  obtain ⟨n0, ns0, hnames⟩ : ∃ n ns, s.names = n :: ns := by
    cases hc : s.names with
    | nil => rw [hc] at hn; cases hn
    | cons n ns => exact ⟨n, ns, rfl⟩
  have hn0 : n0 ∈ s.names := by rw [hnames]; simp
  obtain ⟨e0, he0⟩ := hg.here n0 hn0
  have hset := setAll_find s s.names s.eqs hk n0
  rw [if_pos hn0, he0] at hset
  have hub : estOne S s.method s.sample (({ s with done := false, eqs := s.names.foldl (setParams s) s.eqs } : Ses F K), []) n0 = .ub := by
    unfold estOne
    simp only []
    rw [if_neg (by simp), hk n0 hn0, hset]
    simp only [Option.map_some]
    rw [if_neg (by omega)]
    have hb : blockOf s.geqs n0 { e0 with method := s.method, block := s.block, instruments := s.instruments } = none := by
      unfold blockOf
      simp only []
      rw [EstSave.cut_pieces, hg.text, if_neg (by rw [hnames]; simp)]
      exact EstSave.members_none (plain_names hg) ⟨n, hn, by rw [hk n hn]; exact hw⟩
    rw [hb]
  have : loop (estOne S s.method s.sample) s.names (({ s with done := false, eqs := s.names.foldl (setParams s) s.eqs } : Ses F K), []) = .ub := by
    rw [hnames] at hub ⊢
    rw [loop, hub]
  rw [this]

/-! ## Saving -/

/-- The equation as it is saved. -/
def asSaved (S : Sys F K) (s : Ses F K) (smp : Sample) (e : Eqn F) : Eqn F :=
  ⟨e.endo, e.lec, if 0 ≤ s.method ∧ s.method < 5 then s.method else 0, some smp, e.comment, s.instruments, s.block, if s.done then S.g.today else 0, if s.done then e.tests else List.replicate 20 S.g.zero⟩

/-- The sample that is saved: that of the estimation, or the one that is given, with that of the variables in the place of what is empty. -/
def SavedSample (S : Sys F K) (s : Ses F K) (a b : Text) (smp : Sample) : Prop :=
  (s.done = true → smp = s.sample) ∧
  (s.done = false → S.g.nb ≠ 0 ∧ ∃ p q, (a = [] → p = S.g.first) ∧ (a ≠ [] → Period.parse a = .ok p) ∧ (b = [] → q = S.stop) ∧ (b ≠ [] → Period.parse b = .ok q) ∧ Sample.ofPeriods p q = .ok smp)

theorem periodOr_ok {t : Text} {p q : Period} (h : periodOr t p = .ok q) : (t = [] → q = p) ∧ (t ≠ [] → Period.parse t = .ok q) := by
  unfold periodOr at h
  by_cases ht : t = []
  · rw [if_pos ht] at h
    injection h with h
    exact ⟨fun _ => h.symm, fun hn => absurd ht hn⟩
  · rw [if_neg ht] at h
    exact ⟨fun h' => absurd h' ht, fun _ => h⟩

theorem savedSample_ok {S : Sys F K} {s : Ses F K} {a b : Text} {smp : Sample} (h : savedSample S s a b = .ok smp) : SavedSample S s a b smp := by
  unfold savedSample at h
  cases hd : s.done with
  | true =>
    rw [hd] at h
    injection h with h
    exact ⟨fun _ => h.symm, fun h' => by rw [hd] at h'; cases h'⟩
  | false =>
    rw [hd] at h
    simp only [Bool.false_eq_true, if_false] at h
    refine ⟨fun h' => (by rw [hd] at h'; cases h'), fun _ => ?_⟩
    split at h
    · cases h
    · rename_i hn
      obtain ⟨p, hp, h⟩ := EstSave.bind_eq h
      obtain ⟨q, hq, h⟩ := EstSave.bind_eq h
      exact ⟨hn, p, q, (periodOr_ok hp).1, (periodOr_ok hp).2, (periodOr_ok hq).1, (periodOr_ok hq).2, h⟩

theorem saveEqs_done (S : Sys F K) (s : Ses F K) (smp : Sample) : ∀ (ns : List Text) (m : SMap (Eqn F)), (∀ n ∈ ns, toKey .equations n = n ∧ ∃ e, s.eqs.find n = some e) → ns.Nodup →
    ∃ m', saveEqs S s smp ns m = (.done m', ns.filter fun n => (m.find n).isNone) ∧ ∀ k, m'.find k = if k ∈ ns then (s.eqs.find k).map (asSaved S s smp) else m.find k
  | [], m, _, _ => ⟨m, rfl, by simp⟩
  | n :: ns, m, h, hn => by
    obtain ⟨hk, e, he⟩ := h n (by simp)
    obtain ⟨h1, h2⟩ := List.nodup_cons.mp hn
    obtain ⟨m', q1, q2⟩ := saveEqs_done S s smp ns (m.insert n (savedEq S s smp e)) (fun x hx => h x (by simp [hx])) h2
    refine ⟨m', ?_, fun k => ?_⟩
    · unfold saveEqs
      rw [hk, he]
      simp only []
      rw [q1]
      simp only []
      have : (ns.filter fun x => ((m.insert n (savedEq S s smp e)).find x).isNone) = ns.filter fun x => (m.find x).isNone := by
        refine List.filter_congr fun x hx => ?_
        rw [SMap.find_insert, if_neg (by rintro rfl; exact h1 hx)]
      rw [this, List.filter_cons]
      cases m.find n <;> rfl
    · rw [q2]
      by_cases hkn : k = n
      · subst hkn
        rw [if_neg h1, SMap.find_insert_self, if_pos (by simp), he]
        rfl
      · rw [SMap.find_insert, if_neg hkn]
        simp [hkn]

/-- What `save` does: each equation of the block is in the workspace with the session's text and comment, its method, block, instruments, the sample and, if there was an estimation, its tests and today's date;
    all other equations stay. The names that were not in the workspace are the answer. A scalar of the session is in the workspace, the others stay, and so do the variables. -/
theorem C79_save {S : Sys F K} {s s' : Ses F K} {a b : Text} {new : List Text} (hg : Good s) (h : save S s a b = (.done s', new)) :
    ∃ smp, SavedSample S s a b smp ∧
      (∀ n ∈ s.names, ∃ e, s.eqs.find n = some e ∧ s'.geqs.find n = some (asSaved S s smp e)) ∧ (∀ k, k ∉ s.names → s'.geqs.find k = s.geqs.find k) ∧
      new = s.names.filter (fun n => (s.geqs.find n).isNone) ∧ (∀ k, s'.gscls.find k = (s.scls.find k <|> s.gscls.find k)) ∧
      s' = { s with geqs := s'.geqs, gscls := s'.gscls, shared := s'.shared } := by
  unfold save at h
  cases hs : savedSample S s a b with
  | err => rw [hs] at h; cases h
  | ub => rw [hs] at h; cases h
  | ok smp =>
    rw [hs] at h
    simp only [] at h
    obtain ⟨m', q1, q2⟩ := saveEqs_done S s smp s.names s.geqs (fun n hn => ⟨hg.key hn, hg.here n hn⟩) hg.once
    rw [q1] at h
    simp only [] at h
    injection h with h hnew
    injection h with h
    subst h
    refine ⟨smp, savedSample_ok hs, fun n hn => ?_, fun k hk => ?_, hnew.symm, fun k => ?_, rfl⟩
    · obtain ⟨e, he⟩ := hg.here n hn
      exact ⟨e, he, by simp only []; rw [q2, if_pos hn, he]; rfl⟩
    · simp only []
      rw [q2, if_neg hk]
    · simp only []
      rw [copyIn_find]
      split
      · rfl
      · rename_i hk
        rw [SMap.mem_keys_iff] at hk
        cases hc : s.scls.find k with
        | none => cases s.gscls.find k <;> rfl
        | some v => exact absurd ⟨v, hc⟩ hk

/-- A `save` that is refused changes nothing. -/
theorem C79_save_refused {S : Sys F K} {s s' : Ses F K} {a b : Text} {new : List Text} (hg : Good s) (h : save S s a b = (.thrown s', new) ∨ save S s a b = (.failed s', new)) : s' = s ∧ savedSample S s a b = .err := by
  unfold save at h
  cases hs : savedSample S s a b with
  | err =>
    rw [hs] at h
    rcases h with h | h
    · injection h with h
      injection h with h
      exact ⟨h.symm, rfl⟩
    · injection h with h; cases h
  | ub =>
    rw [hs] at h
    rcases h with h | h <;> (injection h with h; cases h)
  | ok smp =>
    rw [hs] at h
    simp only [] at h
    obtain ⟨m', q1, -⟩ := saveEqs_done S s smp s.names s.geqs (fun n hn => ⟨hg.key hn, hg.here n hn⟩) hg.once
    rw [q1] at h
    rcases h with h | h <;> (injection h with h; cases h)

/-- A session that is saved before it estimates asks for its own LECs and keeps them. -/
theorem C79_saved_first {S : Sys F K} {s s1 s2 : Ses F K} {a b : Text} {new : List Text} (hg : Good s) (h : save S s a b = (.done s1, new)) (h2 : estimate S s1 = .done s2 ∨ estimate S s1 = .thrown s2)
    (hd : s2.done = true) :
    ∃ ls scls r, S.g.est ⟨s.names, ls, pieces [',', ';'] s.instruments, s.method, s.sample⟩ s.scls s.gvars = (scls, some r) ∧ ls.length = s.names.length ∧
      ∀ (i : Nat) n, s.names[i]? = some n → ∃ e e', s.eqs.find n = some e ∧ s2.eqs.find n = some e' ∧ ls[i]? = some e.lec ∧ e'.lec = e.lec ∧ e'.comment = e.comment := by
  obtain ⟨smp, -, a1, -, -, -, a6⟩ := C79_save hg h
  have hn : s1.names = s.names := by rw [a6]
  have he : s1.eqs = s.eqs := by rw [a6]
  have hg1 : Good s1 := good_of hg hn (by rw [a6]) (by rw [a6]) (by rw [he]; exact fun _ h => h)
  obtain ⟨ls, off, scls, r, hq, q2, -⟩ := C79_estimated hg1 h2 hd
  have hf := hq.found
  have hl := hq.lecs
  rw [hn] at hf hl q2
  rw [show s1.instruments = s.instruments by rw [a6], show s1.method = s.method by rw [a6], show s1.sample = s.sample by rw [a6], show s1.scls = s.scls by rw [a6], show s1.gvars = s.gvars by rw [a6]] at hf
  refine ⟨ls, scls, r, hf, hl, fun i n hi => ?_⟩
  obtain ⟨e, l, b1, b2, b3, b4⟩ := q2 i n hi
  obtain ⟨e', c1, c2⟩ := a1 n (List.mem_of_getElem? hi)
  rw [he] at b1
  rw [b1] at c1
  injection c1 with c1
  subst c1
  rw [c2] at b2
  injection b2 with b2
  have b2 : e.lec = l := b2
  refine ⟨e, _, b1, b4, ?_, ?_, rfl⟩
  · rw [b3, b2]
  · exact b2.symm

/-! ## Examples and counterexamples -/

/-- The words that begin with `c`. -/
def words (t : Text) : List Text := (pieces [' '] t).filter fun w => w.head? = some 'c'

/-- An estimation that gives each coefficient the length of the texts. -/
abbrev eng : Eng Nat Nat where
  est q scls _ :=
    if q.lecs.any (· = []) then (scls, none)
    else ((q.lecs.flatMap words).foldl (fun m c => m.insert c ⟨(q.lecs.map List.length).sum, 1, some 1⟩) scls,
      some ⟨fun j i => 100 * q.lecs.length + 10 * j + i, fun j t => 10 * j + t, fun j t => 20 * j + t, fun j t => 30 * j + t, (q.lecs.flatMap words).dedup.length⟩)
  rest := List.replicate 9 77
  zero := 0
  wide := id
  int := id
  one := 1
  today := 20260101
  first := ⟨2000, 1, 'Y'⟩
  nb := 4

/-- A LEC with a question mark does not compile. -/
abbrev sys : Sys Nat Nat where
  g := eng
  init := 90
  nought := 0
  stop := ⟨2003, 1, 'Y'⟩
  coefs _ l := if '?' ∈ l then none else some (words l)
  valid _ := true
  filter _ b := some (pieces [' ', ',', ';'] b).dedup

abbrev eqn (n l : Text) : Eqn Nat := ⟨n, l, 0, none, "about".toList, [], [], 0, List.replicate 20 9⟩

abbrev mid : Sample := ⟨⟨2001, 1, 'Y'⟩, ⟨2002, 1, 'Y'⟩, 2⟩

abbrev ws : SMap (Eqn Nat) := [("A".toList, eqn "A".toList "A := c1 * B".toList), ("B".toList, eqn "B".toList "B := c2 * A".toList), ("C".toList, eqn "C".toList "C := c1 + c3".toList)]

/-- A new session. -/
abbrev new : Ses Nat Nat := begin ws [("c1".toList, ⟨1, 1, none⟩), ("c2".toList, ⟨2, 1, none⟩)] [] mid

/-- The operations, with what they leave. -/
def follow (S : Sys Nat Nat) : List Op → Ses Nat Nat → Option (Ses Nat Nat)
  | [], s => some s
  | o :: os, s =>
    match step S s o with
    | .done t => follow S os t
    | .failed t => follow S os t
    | .thrown t => follow S os t
    | .ub => none

theorem follow_steps {S : Sys Nat Nat} : ∀ {os : List Op} {s s' : Ses Nat Nat}, follow S os s = some s' → Steps S s os s'
  | [], s, s', h => by
    injection h with h
    subst h
    exact .nil s
  | o :: os, s, s', h => by
    unfold follow at h
    cases ho : step S s o with
    | done t => rw [ho] at h; exact .cons (.inl ho) (follow_steps h)
    | failed t => rw [ho] at h; exact .cons (.inr (.inl ho)) (follow_steps h)
    | thrown t => rw [ho] at h; exact .cons (.inr (.inr ho)) (follow_steps h)
    | ub => rw [ho] at h; cases h

/-- What is seen of a session: the LECs in the workspace, the scalars of the workspace, the LECs in the session, the scalars of the session, whether it is estimated. -/
def view (s : Ses Nat Nat) : List (Text × Text) × List (Text × Nat) × List (Text × Text) × List (Text × Nat) × Bool :=
  (s.geqs.map fun p => (p.1, p.2.lec), (s.gscls.filter fun p => p.1.head? = some 'c').map fun p => (p.1, p.2.value), s.eqs.map fun p => (p.1, p.2.lec), s.scls.map fun p => (p.1, p.2.value), s.done)

theorem filter_sys : ∀ m b ns, sys.filter m b = some ns → ns.Nodup := by
  intro m b ns h
  injection h with h
  rw [← h]
  exact List.nodup_dedup _

abbrev both : List Op := [.block "A;B".toList "A".toList, .scalars, .method 1, .instruments "I".toList, .estimate]

set_option synthInstance.maxSize 4000 in
/-- A block of two equations is estimated: the workspace has its LECs and its coefficients as before. -/
theorem both_view : (follow sys both new).map view = some
    ([("A".toList, "A := c1 * B".toList), ("B".toList, "B := c2 * A".toList), ("C".toList, "C := c1 + c3".toList)], [("c1".toList, 1), ("c2".toList, 2)],
      [("A".toList, "A := c1 * B".toList), ("B".toList, "B := c2 * A".toList)], [("c1".toList, 22), ("c2".toList, 22)], true) := by decide +kernel

example : ∃ s, Steps sys new both s ∧ Good s ∧ s.geqs = ws ∧ s.done = true ∧ ∀ k, ¬ IsResult k → s.gscls.find k = new.gscls.find k ∨ new.gscls.find k = none ∧ s.gscls.find k = some ⟨90, 1, none⟩ := by
  have hv := both_view
  cases hf : follow sys both new with
  | none => rw [hf] at hv; cases hv
  | some s =>
    rw [hf] at hv
    have hs := follow_steps hf
    have hu := C79_unsaved filter_sys hs (C79_begin _ _ _ _).1 rfl (by simp)
    refine ⟨s, hs, C79_invariant filter_sys hs (C79_begin _ _ _ _).1, hu.1, ?_, hu.2.2.2⟩
    injection hv with hv
    exact congrArg (fun v => v.2.2.2.2) hv

set_option synthInstance.maxSize 4000 in
/-- The LEC that was written in the session is not the one that is estimated, and it is lost: both the session and a later `save` have the old one. -/
theorem C79_edit_counterexample :
    (follow sys [.block "A".toList "A".toList, .current "A := c1 + c2 * B".toList "new".toList, .scalars] new).map (fun s => (view s).2.2) = some
      ([("A".toList, "A := c1 + c2 * B".toList)], [("c1".toList, 1), ("c2".toList, 2)], false) ∧
    (follow sys [.block "A".toList "A".toList, .current "A := c1 + c2 * B".toList "new".toList, .scalars, .estimate, .save [] []] new).map view = some
      ([("A".toList, "A := c1 * B".toList), ("B".toList, "B := c2 * A".toList), ("C".toList, "C := c1 + c3".toList)], [("c1".toList, 11), ("c2".toList, 2)],
        [("A".toList, "A := c1 * B".toList)], [("c1".toList, 11), ("c2".toList, 2)], true) := by decide +kernel

set_option synthInstance.maxSize 4000 in
/-- Saved first, it is the one that is estimated. -/
example : (follow sys [.block "A".toList "A".toList, .current "A := c1 + c2 * B".toList "new".toList, .scalars, .save [] [], .estimate] new).map (fun s => (view s).2.2) = some
    ([("A".toList, "A := c1 + c2 * B".toList)], [("c1".toList, 16), ("c2".toList, 16)], true) := by decide +kernel

set_option synthInstance.maxSize 4000 in
/-- After the estimation of `A` the block is `C`: saved, `C` has the sample, the date of today and its old tests, as if it had been estimated. -/
theorem C79_done_counterexample :
    (follow sys [.block "A".toList "A".toList, .scalars, .estimate, .block "C".toList "C".toList, .save [] []] new).map (fun s => (s.geqs.find "C".toList).map fun e => (e.sample, e.date, e.tests)) =
      some (some (some mid, 20260101, List.replicate 20 9)) := by decide +kernel

set_option synthInstance.maxSize 4000 in
/-- A coefficient that an equation outside the block also uses is not in the session, though the block uses it. -/
theorem C79_shared_counterexample :
    (follow sys [.block "A".toList "A".toList, .scalars, .block "C".toList "C".toList, .scalars] new).map (fun s => (s.names, (view s).2.2)) = some
      (["C".toList], [("A".toList, "A := c1 * B".toList), ("C".toList, "C := c1 + c3".toList)], [("c3".toList, 90)], false) := by decide +kernel

/-- After `save` an estimation changes the scalars of the workspace though it is not saved. -/
theorem C79_alias_counterexample :
    (follow sys [.block "A".toList "A".toList, .scalars, .save [] []] new).map (fun s => (view s).2.1) = some [("c1".toList, 1), ("c2".toList, 2)] ∧
    (follow sys [.block "A".toList "A".toList, .scalars, .save [] [], .estimate] new).map (fun s => (view s).2.1) = some [("c1".toList, 11), ("c2".toList, 2)] ∧
    (follow sys [.block "A".toList "A".toList, .scalars, .estimate] new).map (fun s => (view s).2.1) = some [("c1".toList, 1), ("c2".toList, 2)] := by decide +kernel

/-- A scalar that is left from an earlier LEC: the estimation succeeds and throws. -/
theorem C79_unused_counterexample :
    ((follow sys [.block "A".toList "A".toList, .scalars, .current "A := c2 * B".toList [], .scalars, .save [] []] new).map fun s => match estimate sys s with
      | .thrown t => some (t.done, t.corr, t.scls.length)
      | _ => none) = some (some (true, 1, 2)) := by decide +kernel

/-- An equation that is new: it is in the session only, and the estimation is undefined. -/
example : ∃ s, Steps sys new [.block "D".toList "D".toList, .scalars] s ∧ estimate sys s = .ub := by
  have hv : (follow sys [.block "D".toList "D".toList, .scalars] new).map (fun s => (s.names, s.geqs.find "D".toList, s.method, s.sample.nb)) = some (["D".toList], none, 0, 2) := by decide +kernel
  cases hf : follow sys [.block "D".toList "D".toList, .scalars] new with
  | none => rw [hf] at hv; cases hv
  | some s =>
    rw [hf] at hv
    injection hv with hv
    have h1 : s.names = ["D".toList] := congrArg (·.1) hv
    have h2 : s.geqs.find "D".toList = none := congrArg (·.2.1) hv
    have h3 : s.method = 0 := congrArg (·.2.2.1) hv
    have h4 : s.sample.nb = 2 := congrArg (·.2.2.2) hv
    exact ⟨s, follow_steps hf, C79_new_undefined (C79_invariant filter_sys (follow_steps hf) (C79_begin _ _ _ _).1) (n := "D".toList) (by rw [h1]; simp) h2 (by rw [h3]; decide) (by rw [h4]; decide)⟩

set_option synthInstance.maxSize 4000 in
/-- Saved without an estimation: the sample is that of the variables, there is no date. `D` is new. -/
example : (match follow sys [.block "C;D".toList "D".toList, .scalars] new with
    | some s => match save sys s [] "2002Y1".toList with
      | (.done t, ns) => some (ns, (t.geqs.find "D".toList).map fun e => (e.lec, e.block, e.sample, e.date), (view t).2.1)
      | _ => none
    | none => none) = some (["D".toList], some ("D := 0".toList, "C;D".toList, some ⟨⟨2000, 1, 'Y'⟩, ⟨2002, 1, 'Y'⟩, 3⟩, 0), [("c1".toList, 1), ("c2".toList, 2), ("c3".toList, 90)]) := by decide +kernel

/-- A sample that is not one: nothing is saved. -/
example : (match follow sys [.block "C;D".toList "D".toList, .scalars] new with
    | some s => match save sys s "x".toList [] with
      | (.thrown t, _) => some (decide (t.geqs = ws))
      | _ => none
    | none => none) = some true := by decide +kernel

/-- A LEC that does not compile is not taken. -/
example : (follow sys [.block "A".toList "A".toList, .current "A := ?".toList "c".toList] new).map (fun s => (s.eqs.find "A".toList).map fun e => (e.lec, e.comment)) = some (some ("A := c1 * B".toList, "c".toList)) := by
  decide +kernel

end Iode.EstEdit
