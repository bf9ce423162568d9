import Verif.Model.ConvCmd
import Verif.Props.C40
import Verif.Props.C41
import Verif.Props.C88

/-!
# C89: the commands that convert variables of a file between periodicities convert the variables named, and only them
-/
namespace Iode.ConvCmd

open Iode.Args (pieces value)
open Iode.DataCmd (tabs)
open Iode.ModelCmd (Blanks Bare Ends Readable Plain word_read word_next blanks_end init_tabs)
open Iode.Idt Iode.Convert
open Iode.Lec (Arith)

variable {F : Type}

/-! ## What is written, and what the file has -/

/-- The file is binary, with sample `fs` and variables `all`: loading names gives the variables with these names. -/
def Holds (s : Source F) (fs : Sample) (all : SMap (List F)) : Prop :=
  ∃ load, s = .binary load ∧ ∀ names, (load names).1 = some fs ∧ SMap.Sorted (load names).2 ∧
    ∀ k, (load names).2.find k = if k ∈ names then all.find k else none

/-- The argument is the file and the names, with blanks in front. -/
def FileNames (arg file rest : Args.Text) : Prop :=
  ∃ s : Args.Text, arg = s ++ (file ++ rest) ∧ Blanks s ∧ Bare file ∧ file.length ≤ 511 ∧ Ends rest ∧ Plain rest

/-- The argument is the method, the file and the names, with blanks in front and between. -/
def MethodFileNames (arg method file rest : Args.Text) : Prop :=
  ∃ s t : Args.Text, arg = s ++ (method ++ (t ++ (file ++ rest))) ∧ Blanks s ∧ Blanks t ∧ t ≠ [] ∧ Bare method ∧ Bare file ∧ method.length ≤ 79 ∧
    file.length ≤ 511 ∧ Ends rest ∧ Plain rest

theorem one_read {arg file rest : Args.Text} (h : FileNames arg file rest) : ModelCmd.word 512 arg = (file, tabs rest) ∧ Plain rest := by
  obtain ⟨s, rfl, hs, hf, hl, he, hp⟩ := h
  exact ⟨word_read hs hf he (by omega), hp⟩

theorem both_read {arg method file rest : Args.Text} (h : MethodFileNames arg method file rest) :
    (ModelCmd.word 80 arg).1 = method ∧ ModelCmd.word 512 (ModelCmd.word 80 arg).2 = (file, tabs rest) ∧ Plain rest := by
  obtain ⟨s, t, rfl, hs, ht, h0, hm, hf, lm, lf, he, hp⟩ := h
  rw [word_read hs hm (blanks_end ht h0 (file ++ rest)) (by omega)]
  exact ⟨rfl, word_next ht hf he (by omega), hp⟩

theorem has_iff {m : SMap (List F)} {k : Name} : m.has k = true ↔ ∃ x, m.find k = some x := by
  rw [SMap.has_iff_mem, SMap.mem_keys_iff]

theorem onFile_read {W : Args.World} (hW : Readable W) {files : Args.Text → Source F} {ws : VarDb F} {file rest : Args.Text} (hp : Plain rest) {n : Name} {ns : List Name}
    (hn : value W 10 (pieces Args.seps rest) = some (n :: ns)) {fs vs : Sample} (hws : ws.smpl = some vs) {load : List Args.Text → Loaded F}
    (hl : files file = .binary load) (hfs : (load (n :: ns)).1 = some fs) (conv : Sample → Sample → SMap (List F) → Res (VarDb F)) :
    onFile W files ws file (tabs rest) conv = conv vs fs (load (n :: ns)).2 := by
  unfold onFile
  rw [init_tabs hW hp, hn]
  simp only [fetch, hl, hws]
  generalize load (n :: ns) = o at *
  obtain ⟨a, b⟩ := o
  simp only at hfs
  subst hfs
  rfl

/-- C89. `$WsHtoL… file names`: each variable named that the file has gets, at the periods of the target sample, the aggregate of its sub-periods, and keeps its former values at the
other periods; the variables that are not named do not change, nor do those the file does not have.  Missing, as in C40: targets that do not align with the file. -/
theorem C89_high_to_low_partial (A : Arith F) (m : Method) {W : Args.World} (hW : Readable W) {arg file rest : Args.Text} (ha : FileNames arg file rest)
    {names : List Name} (hn : value W 10 (pieces Args.seps rest) = some names) (hne : names ≠ [])
    {files : Args.Text → Source F} {f : Sample} {all : SMap (List F)} (hh : Holds (files file) f all)
    {ws ws' : VarDb F} {vs : Sample} (hv : vs.Fair) (hf : f.Fair) (hws : ws.smpl = some vs) (hreg : Regular ws)
    (hlen : ∀ k x, all.find k = some x → x.length = f.nb.toNat) {fn wn r : Int} (hfn : nbPeriodsPerYear f.start.periodicity = .ok fn)
    (hwn : nbPeriodsPerYear vs.start.periodicity = .ok wn) (hr : fn = wn * r) (hal : wn = 1 ∨ r ∣ f.start.step - 1)
    (h : htolCmd A m W files ws arg = .ok ws') :
    ws'.smpl = some vs ∧ (∀ k, k ∉ names ∨ all.find k = none → ws'.vars.find k = ws.vars.find k) ∧
    ∃ t : Sample, t.Fair ∧ t.stop = ⟨f.stop.year, wn, vs.start.periodicity⟩ ∧
      ∀ k ∈ names, ∀ x, all.find k = some x → ∃ z, ws'.vars.find k = some z ∧ z.length = vs.nb.toNat ∧
        ∀ q i, vs.position q = .ok i →
          ((∃ u, t.position q = .ok u) → ∃ v, z[i.toNat]? = some v ∧ Converts A m r f x q v) ∧
          ((¬ ∃ u, t.position q = .ok u) → ¬ Covers r f q ∧ z[i.toNat]? = some (((ws.vars.find k).bind (·[i.toNat]?)).getD A.na)) := by
  obtain ⟨load, hl, hh⟩ := hh
  obtain ⟨n, ns, rfl⟩ := List.exists_cons_of_ne_nil hne
  obtain ⟨g1, g2, g3⟩ := hh (n :: ns)
  obtain ⟨hr1, hp⟩ := one_read ha
  unfold htolCmd at h
  simp only [hr1] at h
  rw [onFile_read hW hp hn hws hl g1] at h
  obtain ⟨e1, e2, t, e3, e4, e5⟩ := C40_workspace_partial A m hv hf hws hreg g2 (fun k x hk => by
    rw [g3] at hk
    split at hk
    · exact hlen k x hk
    · cases hk) hfn hwn hr hal h
  refine ⟨e1, fun k hk => e2 k ?_, t, e3, e4, fun k hk x hx => e5 k x (by rw [g3, if_pos hk, hx])⟩
  cases hb : (load (n :: ns)).2.has k with
  | false => rfl
  | true =>
    obtain ⟨x, hx⟩ := has_iff.mp hb
    rw [g3] at hx
    rcases hk with hk | hk
    · rw [if_neg hk] at hx; cases hx
    · rw [hk] at hx; split at hx <;> cases hx

/-- C89. `$WsLtoH… S… file names`: each variable named that the file has gets, at the periods of the target sample, the share of the period they are part of, and keeps its former
values at the other periods; the variables that are not named do not change, nor do those the file does not have.  Missing, as in C41: files that do not start with a year. -/
theorem C89_low_to_high_partial (A : Arith F) (cs : Kind → Nat → Nat → List F → Res (List F)) (kd : Kind) {W : Args.World} (hW : Readable W)
    {arg method file rest : Args.Text} (ha : MethodFileNames arg ('S' :: method) file rest)
    {names : List Name} (hn : value W 10 (pieces Args.seps rest) = some names) (hne : names ≠ [])
    {files : Args.Text → Source F} {f : Sample} {all : SMap (List F)} (hh : Holds (files file) f all)
    {ws ws' : VarDb F} {vs : Sample} (hv : vs.Fair) (hf : f.Fair) (hws : ws.smpl = some vs) (hreg : Regular ws)
    (hlen : ∀ k x, all.find k = some x → x.length = f.nb.toNat) {fn wn r : Int} (hfn : nbPeriodsPerYear f.start.periodicity = .ok fn)
    (hwn : nbPeriodsPerYear vs.start.periodicity = .ok wn) (hr : wn = fn * r) (h1 : 1 < r) (hst : f.start.step = 1)
    (hb : wn * (f.stop.year - f.start.year + 1) ≤ 32767) (h : ltohCmd A cs kd W files ws arg = .ok ws') :
    ws'.smpl = some vs ∧ (∀ k, k ∉ names ∨ all.find k = none → ws'.vars.find k = ws.vars.find k) ∧
      ∀ k ∈ names, ∀ x, all.find k = some x → ∃ z, ws'.vars.find k = some z ∧ z.length = vs.nb.toNat ∧
        ∀ p i, vs.position p = .ok i →
          ((∃ u, (highSample f wn vs.start.periodicity).position p = .ok u) → ∃ v, z[i.toNat]? = some v ∧ Spreads A kd r f x p v) ∧
          ((¬ ∃ u, (highSample f wn vs.start.periodicity).position p = .ok u) →
            z[i.toNat]? = some (((ws.vars.find k).bind (·[i.toNat]?)).getD A.na)) := by
  obtain ⟨load, hl, hh⟩ := hh
  obtain ⟨n, ns, rfl⟩ := List.exists_cons_of_ne_nil hne
  obtain ⟨g1, g2, g3⟩ := hh (n :: ns)
  obtain ⟨hr0, hr1, hp⟩ := both_read ha
  unfold ltohCmd at h
  simp only [hr0, hr1] at h
  rw [onFile_read hW hp hn hws hl g1] at h
  have h' : ltoh A kd ws vs f (load (n :: ns)).2 = .ok ws' := by
    rw [← h]
    unfold ltoh
    cases ltohSmpl f vs <;> rfl
  obtain ⟨e1, e2, e5⟩ := C41_workspace_partial A kd hv hf hws hreg g2 (fun k x hk => by
    rw [g3] at hk
    split at hk
    · exact hlen k x hk
    · cases hk) hfn hwn hr h1 hst hb h'
  refine ⟨e1, fun k hk => e2 k ?_, fun k hk x hx => e5 k x (by rw [g3, if_pos hk, hx])⟩
  cases hb : (load (n :: ns)).2.has k with
  | false => rfl
  | true =>
    obtain ⟨x, hx⟩ := has_iff.mp hb
    rw [g3] at hx
    rcases hk with hk | hk
    · rw [if_neg hk] at hx; cases hx
    · rw [hk] at hx; split at hx <;> cases hx

/-- The method a letter stands for. -/
inductive Letter (A : Arith F) (cs : Kind → Nat → Nat → List F → Res (List F)) (k : Kind) : Char → (Nat → Nat → List F → Res (List F)) → Prop
  | splines : Letter A cs k 'C' (cs k)
  | steps : Letter A cs k 'S' (ltohStep A k)
  | linear : Letter A cs k 'L' (ltohLin A k)

/-- C89. The first letter of the method chooses how each variable of the file is converted; the values found are put in the workspace. -/
theorem C89_method (A : Arith F) (cs : Kind → Nat → Nat → List F → Res (List F)) (kd : Kind) {W : Args.World} (hW : Readable W)
    {arg method file rest : Args.Text} {c : Char} (ha : MethodFileNames arg (c :: method) file rest) {conv : Nat → Nat → List F → Res (List F)} (hc : Letter A cs kd c conv)
    {names : List Name} (hn : value W 10 (pieces Args.seps rest) = some names) (hne : names ≠ [])
    {files : Args.Text → Source F} {f : Sample} {all : SMap (List F)} (hh : Holds (files file) f all)
    {ws ws' : VarDb F} {vs : Sample} (hv : vs.Fair) (hws : ws.smpl = some vs) (hreg : Regular ws) {t : Sample} (ht : t.Fair) {r : Int}
    (hs : ltohSmpl f vs = .ok (t, r)) (hlen : ∀ k x y, all.find k = some x → conv r.toNat t.nb.toNat x = .ok y → y.length = t.nb.toNat)
    (h : ltohCmd A cs kd W files ws arg = .ok ws') :
    ws'.smpl = some vs ∧ (∀ k, k ∉ names ∨ all.find k = none → ws'.vars.find k = ws.vars.find k) ∧
      ∀ k ∈ names, ∀ x, all.find k = some x → ∃ y z, conv r.toNat t.nb.toNat x = .ok y ∧ ws'.vars.find k = some z ∧ z.length = vs.nb.toNat ∧
        ∀ p i, vs.position p = .ok i →
          (∀ u, t.position p = .ok u → z[i.toNat]? = y[u.toNat]?) ∧
          ((¬ ∃ u, t.position p = .ok u) → z[i.toNat]? = some (((ws.vars.find k).bind (·[i.toNat]?)).getD A.na)) := by
  obtain ⟨load, hl, hh⟩ := hh
  obtain ⟨n, ns, rfl⟩ := List.exists_cons_of_ne_nil hne
  obtain ⟨g1, g2, g3⟩ := hh (n :: ns)
  obtain ⟨hr0, hr1, hp⟩ := both_read ha
  unfold ltohCmd at h
  simp only [hr0, hr1] at h
  rw [onFile_read hW hp hn hws hl g1] at h
  simp only [hs] at h
  have hb : byLetter A cs kd (c :: method) r.toNat t.nb.toNat = conv r.toNat t.nb.toNat := by cases hc <;> rfl
  rw [hb] at h
  obtain ⟨dst, hd, h⟩ := Lec.Res.bind_eq_ok' h
  obtain ⟨k1, k2⟩ := ltohAll_spec hd
  have hdl : ∀ k y, dst.find k = some y → y.length = t.nb.toNat := by
    intro k y hy
    obtain ⟨x, hx, he⟩ := k2 k y hy
    rw [g3] at hx
    split at hx
    · exact hlen k x y hx he
    · cases hx
  rcases merge_spec (na := A.na) hv ht (hreg vs hws).2 (sorted_keys k1.symm g2) hdl with ⟨he, _⟩ | ⟨w, he, e1, e2, e3⟩
  · rw [he] at h; cases h
  · rw [he] at h
    cases h
    refine ⟨e1.trans hws, fun k hk => e2 k ?_, fun k hk x hx => ?_⟩
    · cases hb : dst.has k with
      | false => rfl
      | true =>
        obtain ⟨y, hy⟩ := has_iff.mp hb
        obtain ⟨x, hx, _⟩ := k2 k y hy
        rw [g3] at hx
        rcases hk with hk | hk
        · rw [if_neg hk] at hx; cases hx
        · rw [hk] at hx; split at hx <;> cases hx
    · have hx' : (load (n :: ns)).2.find k = some x := by rw [g3, if_pos hk, hx]
      have hkd : k ∈ dst.keys := by rw [k1]; exact (SMap.mem_keys_iff _ _).2 ⟨x, hx'⟩
      obtain ⟨y, hy⟩ := (SMap.mem_keys_iff _ _).1 hkd
      obtain ⟨x', hx2, hxy⟩ := k2 k y hy
      rw [hx'] at hx2
      cases hx2
      obtain ⟨z, z1, z2, z3⟩ := e3 k y hy
      refine ⟨y, z, hxy, z1, z2, fun p i hp => ⟨fun u hu => ?_, fun hn => ?_⟩⟩
      · rw [z3 p i hp, hu]
      · rw [z3 p i hp]
        cases hq : t.position p with
        | ok u => exact absurd ⟨u, hq⟩ hn
        | err => rfl
        | ub => rfl

/-! ## What is not as one expects -/

theorem onFile_no_names {W : Args.World} {files : Args.Text → Source F} {ws : VarDb F} {file rest : Args.Text} (conv : Sample → Sample → SMap (List F) → Res (VarDb F))
    (h : Args.init W rest = .ok none ∨ Args.init W rest = .ok (some [])) : onFile W files ws file rest conv = .ub := by
  unfold onFile
  rcases h with h | h <;> rw [h]

/-- Without names, with a list that does not exist and with lists that are empty, both commands read through a null pointer. -/
theorem C89_no_names_undefined (A : Arith F) (cs : Kind → Nat → Nat → List F → Res (List F)) (kd : Kind) (m : Method) {W : Args.World} (hW : Readable W)
    (files : Args.Text → Source F) (ws : VarDb F) {file rest : Args.Text}
    (hn : value W 10 (pieces Args.seps rest) = none ∨ value W 10 (pieces Args.seps rest) = some []) :
    (∀ arg, FileNames arg file rest → htolCmd A m W files ws arg = .ub) ∧ (∀ arg method, MethodFileNames arg method file rest → ltohCmd A cs kd W files ws arg = .ub) := by
  have hi : ∀ hp : Plain rest, Args.init W (tabs rest) = .ok none ∨ Args.init W (tabs rest) = .ok (some []) := by
    intro hp
    rw [init_tabs hW hp]
    rcases hn with hn | hn <;> rw [hn] <;> simp
  refine ⟨fun arg ha => ?_, fun arg method ha => ?_⟩
  · obtain ⟨h1, hp⟩ := one_read ha
    unfold htolCmd
    simp only [h1]
    exact onFile_no_names _ (hi hp)
  · obtain ⟨_, h1, hp⟩ := both_read ha
    unfold ltohCmd
    simp only [h1]
    exact onFile_no_names _ (hi hp)

/-- So they do when the workspace has no sample, whatever is written. -/
theorem C89_no_sample_undefined (A : Arith F) (cs : Kind → Nat → Nat → List F → Res (List F)) (kd : Kind) (m : Method) (W : Args.World)
    (files : Args.Text → Source F) {ws : VarDb F} (hws : ws.smpl = none) (arg : Args.Text) :
    htolCmd A m W files ws arg = .ub ∧ ltohCmd A cs kd W files ws arg = .ub := by
  have h : ∀ file rest conv, onFile W files ws file rest conv = .ub := by
    intro file rest conv
    unfold onFile
    rw [hws]
    split
    · split
      · next h => cases h
      · rfl
    · rfl
  exact ⟨h _ _ _, h _ _ _⟩

/-- So they do when the file cannot be read. -/
theorem C89_no_file_undefined (A : Arith F) (cs : Kind → Nat → Nat → List F → Res (List F)) (kd : Kind) (m : Method) {W : Args.World}
    (files : Args.Text → Source F) (ws : VarDb F) {file rest : Args.Text} {vars : SMap (List F)} (hf : files file = .text (none, vars)) :
    (∀ arg, FileNames arg file rest → htolCmd A m W files ws arg = .ub) ∧ (∀ arg method, MethodFileNames arg method file rest → ltohCmd A cs kd W files ws arg = .ub) := by
  have h : ∀ r conv, onFile W files ws file r conv = .ub := by
    intro r conv
    unfold onFile
    rw [hf]
    simp only [fetch]
    split <;> rfl
  refine ⟨fun arg ha => ?_, fun arg method ha => ?_⟩
  · unfold htolCmd
    simp only [(one_read ha).1]
    exact h _ _
  · unfold ltohCmd
    simp only [(both_read ha).2.1]
    exact h _ _

/-- A method that is neither `C…` nor `S…`, lower case letters among them, is not refused: it is the linear one. -/
theorem C89_method_counterexample (A : Arith F) (cs : Kind → Nat → Nat → List F → Res (List F)) (kd : Kind) (W : Args.World) (files : Args.Text → Source F) (ws : VarDb F)
    {s t method method' file rest : Args.Text} {c : Char} (hc : c ≠ 'C') (hc' : c ≠ 'S') (ha : MethodFileNames (s ++ ((c :: method) ++ (t ++ (file ++ rest)))) (c :: method) file rest)
    (hb : MethodFileNames (s ++ (('L' :: method') ++ (t ++ (file ++ rest)))) ('L' :: method') file rest) :
    ltohCmd A cs kd W files ws (s ++ ((c :: method) ++ (t ++ (file ++ rest)))) = ltohCmd A cs kd W files ws (s ++ (('L' :: method') ++ (t ++ (file ++ rest)))) := by
  obtain ⟨a1, a2, _⟩ := both_read ha
  obtain ⟨b1, b2, _⟩ := both_read hb
  have e : byLetter A cs kd (c :: method) = byLetter A cs kd ('L' :: method') := by
    funext shift tn
    unfold byLetter
    simp only [List.head?_cons]
    split
    · next h => cases h; exact absurd rfl hc
    · next h => cases h; exact absurd rfl hc'
    · rfl
  unfold ltohCmd
  simp only [a1, a2, b1, b2, e]

/-- The names have no effect on an ascii file: all its variables are converted. -/
theorem C89_ascii_counterexample (A : Arith F) (m : Method) {W : Args.World} (hW : Readable W) {arg file rest : Args.Text} (ha : FileNames arg file rest)
    {names : List Name} (hn : value W 10 (pieces Args.seps rest) = some names) (hne : names ≠ []) {files : Args.Text → Source F} {fs vs : Sample} {all : SMap (List F)}
    (hf : files file = .text (some fs, all)) {ws : VarDb F} (hws : ws.smpl = some vs) : htolCmd A m W files ws arg = htol A m ws vs fs all := by
  obtain ⟨n, ns, rfl⟩ := List.exists_cons_of_ne_nil hne
  obtain ⟨h1, hp⟩ := one_read ha
  unfold htolCmd onFile
  simp only [h1]
  rw [init_tabs hW hp, hn]
  simp only [hf, fetch, hws]

/-! ## Examples -/

open Iode.Lec (exArith nm)
open Iode.ModelCmd (world world_readable)

/-- A file with `A` and `B`, by quarters. -/
def quarters : SMap (List (Option Int)) :=
  [(nm 'A', [some 1, some 2, some 10, some 20, some 30, some 40, some 5, some 6, some 7]), (nm 'B', [some 0, some 0, some 1, some 1, some 1, some 1, some 0, some 0, some 0])]

def disk (file : Args.Text) : Source (Option Int) :=
  if file = ['q'] then .binary fun names => (some exQuarters, quarters.filter fun e => e.1 ∈ names)
  else if file = ['q', '.', 'a', 'v'] then .text (some exQuarters, quarters)
  else .text (none, [])

def years : VarDb (Option Int) := ⟨some exYears, [(nm 'A', [some 1, some 2, some 3, some 4]), (nm 'B', [some 5, some 6, some 7, some 8])]⟩

/-- `B` is not named and does not change. -/
example : htolCmd exArith .sum world disk years " q A".toList = .ok ⟨some exYears, [(nm 'A', [some 1, some 100, none, some 4]), (nm 'B', [some 5, some 6, some 7, some 8])]⟩ := by
  decide +kernel

/-- It is not named either, and changes when the file is an ascii file. -/
theorem C89_ascii_run_counterexample : htolCmd exArith .sum world disk years "q.av A".toList =
    .ok ⟨some exYears, [(nm 'A', [some 1, some 100, none, some 4]), (nm 'B', [some 5, some 4, none, some 8])]⟩ := by
  decide +kernel

theorem find_filter (names : List Name) : ∀ (m : SMap (List F)) (k : Name),
    SMap.find k (List.filter (fun e : Name × List F => e.1 ∈ names) m) = if k ∈ names then SMap.find k m else none
  | [], k => by simp [SMap.find]
  | (n, x) :: m, k => by
    have ih := find_filter names m k
    by_cases hn : n ∈ names
    · rw [List.filter_cons_of_pos (by simpa using hn)]
      simp only [SMap.find]
      by_cases e : k = n
      · subst e; simp [hn]
      · simp [e, ih]
    · rw [List.filter_cons_of_neg (by simpa using hn), ih]
      simp only [SMap.find]
      by_cases e : k = n
      · subst e; simp [hn]
      · simp [e]

/-- The hypotheses of the theorems hold there. -/
theorem disk_holds : Holds (disk ['q']) exQuarters quarters := by
  refine ⟨_, rfl, fun names => ⟨rfl, ?_, fun k => find_filter names _ k⟩⟩
  unfold quarters
  simp only [List.filter_cons, List.filter_nil]
  split <;> split <;> simp [SMap.Sorted, nm] <;> decide

theorem words_example : FileNames [' ', 'q', ' ', 'A'] ['q'] [' ', 'A'] := by
  refine ⟨[' '], rfl, by unfold Blanks; decide, by unfold Bare; decide, by decide, by unfold Ends; decide, ?_⟩
  exact ⟨⟨by decide, by decide +kernel⟩, by unfold Args.Short; decide +kernel⟩

theorem named_example : value world 10 (pieces Args.seps [' ', 'A']) = some [nm 'A'] := by
  rw [show pieces Args.seps [' ', 'A'] = [['A']] by decide +kernel]
  simp [value, nm]

theorem years_regular : Regular years := by
  intro ts h
  cases h
  refine ⟨exYears_fair, fun k x hx => ?_⟩
  have := mem_of_find hx
  simp only [years, List.mem_cons, List.not_mem_nil, or_false, Prod.mk.injEq] at this
  rcases this with h | h <;> rw [h.2] <;> rfl

example (ws' : VarDb (Option Int)) (h : htolCmd exArith .sum world disk years [' ', 'q', ' ', 'A'] = .ok ws') : ws'.vars.find (nm 'B') = some [some 5, some 6, some 7, some 8] := by
  have := (C89_high_to_low_partial exArith .sum world_readable words_example named_example (by simp) disk_holds exYears_fair exQuarters_fair rfl years_regular
    (fun k x hx => by
      have := mem_of_find hx
      simp only [quarters, List.mem_cons, List.not_mem_nil, or_false, Prod.mk.injEq] at this
      rcases this with h | h <;> rw [h.2] <;> rfl) (fn := 4) (wn := 1) (r := 4) rfl rfl rfl (Or.inl rfl) h).2.1 (nm 'B') (Or.inl (by decide))
  rw [this]
  rfl

/-- 2001Y1 to 2002Y1 and 2000Q3 to 2001Q2. -/
def exTwo : Sample := ⟨⟨2001, 1, 'Y'⟩, ⟨2002, 1, 'Y'⟩, 2⟩
def exFour : Sample := ⟨⟨2000, 3, 'Q'⟩, ⟨2001, 2, 'Q'⟩, 4⟩
theorem exTwo_fair : exTwo.Fair := ⟨1, ⟨⟨1, rfl, by decide, by decide⟩, ⟨1, rfl, by decide, by decide⟩, rfl, rfl⟩, by decide, rfl⟩
theorem exFour_fair : exFour.Fair := ⟨3, ⟨⟨4, rfl, by decide, by decide⟩, ⟨4, rfl, by decide, by decide⟩, rfl, rfl⟩, by decide, rfl⟩

def yearly : SMap (List (Option Int)) := [(nm 'A', [some 5, some 6]), (nm 'B', [some 7, some 8])]
def tape : Args.Text → Source (Option Int) := fun _ => .binary fun names => (some exTwo, yearly.filter fun e => e.1 ∈ names)
def recent : VarDb (Option Int) := ⟨some exFour, [(nm 'A', [none, some 1, some 2, some 3]), (nm 'B', [some 0, some 9, some 9, some 9])]⟩

theorem tape_holds (file : Args.Text) : Holds (tape file) exTwo yearly := by
  refine ⟨_, rfl, fun names => ⟨rfl, ?_, fun k => find_filter names _ k⟩⟩
  unfold yearly
  simp only [List.filter_cons, List.filter_nil]
  split <;> split <;> simp [SMap.Sorted, nm] <;> decide

theorem recent_regular : Regular recent := by
  intro ts h
  cases h
  refine ⟨exFour_fair, fun k x hx => ?_⟩
  have := mem_of_find hx
  simp only [recent, List.mem_cons, List.not_mem_nil, or_false, Prod.mk.injEq] at this
  rcases this with h | h <;> rw [h.2] <;> rfl

theorem yearly_length (k : Name) (x : List (Option Int)) (hx : yearly.find k = some x) : x.length = exTwo.nb.toNat := by
  have := mem_of_find hx
  simp only [yearly, List.mem_cons, List.not_mem_nil, or_false, Prod.mk.injEq] at this
  rcases this with h | h <;> rw [h.2] <;> rfl

theorem method_example (c : Char) (hc : isSpaceC c = false ∧ c ≠ ',') : MethodFileNames [c, ' ', 'q', ' ', 'A'] [c] ['q'] [' ', 'A'] := by
  refine ⟨[], [' '], rfl, by unfold Blanks; decide, by unfold Blanks; decide, by simp, ⟨by simp, by simpa using hc⟩, by unfold Bare; decide, by simp, by simp,
    by unfold Ends; decide, ?_⟩
  exact ⟨⟨by decide, by decide +kernel⟩, by unfold Args.Short; decide +kernel⟩

/-- By steps, from years to quarters: only the quarters of 2001 in the workspace get values, and only those of `A`. -/
theorem steps_example : ltohCmd exArith (fun _ _ _ _ => .err) .stock world tape recent ['S', ' ', 'q', ' ', 'A'] =
    .ok ⟨some exFour, [(nm 'A', [none, some 1, some 5, some 5]), (nm 'B', [some 0, some 9, some 9, some 9])]⟩ := by
  decide +kernel

/-- The hypotheses of the theorems hold there. -/
example := C89_low_to_high_partial exArith (fun _ _ _ _ => .err) .stock world_readable (method_example 'S' (by decide)) named_example (by simp) (tape_holds ['q']) exFour_fair exTwo_fair
  rfl recent_regular yearly_length (fn := 1) (wn := 4) (r := 4) rfl rfl rfl (by decide) rfl (by decide) steps_example

example := C89_method exArith (fun _ _ _ _ => .err) .stock world_readable (method_example 'S' (by decide)) .steps named_example (by simp) (tape_holds ['q']) exFour_fair
  rfl recent_regular (t := ⟨⟨2001, 1, 'Q'⟩, ⟨2002, 4, 'Q'⟩, 8⟩) ⟨7, ⟨⟨4, rfl, by decide, by decide⟩, ⟨4, rfl, by decide, by decide⟩, rfl, rfl⟩, by decide, rfl⟩ (r := 4) (by decide +kernel)
  (fun k x y hx hy => by
    have := mem_of_find hx
    simp only [yearly, List.mem_cons, List.not_mem_nil, or_false, Prod.mk.injEq] at this
    rcases this with h | h
    · rw [h.2] at hy
      rw [show ltohStep exArith .stock (Int.toNat 4) (Int.toNat 8) [some 5, some 6] = .ok [some 5, some 5, some 5, some 5, some 6, some 6, some 6, some 6] by decide +kernel] at hy
      cases hy; rfl
    · rw [h.2] at hy
      rw [show ltohStep exArith .stock (Int.toNat 4) (Int.toNat 8) [some 7, some 8] = .ok [some 7, some 7, some 7, some 7, some 8, some 8, some 8, some 8] by decide +kernel] at hy
      cases hy; rfl) steps_example

/-- Lower case `s` is linear. -/
example (ws : VarDb (Option Int)) : ltohCmd exArith (fun _ _ _ _ => .err) .stock world disk ws ['s', ' ', 'q', ' ', 'A'] =
    ltohCmd exArith (fun _ _ _ _ => .err) .stock world disk ws ['L', ' ', 'q', ' ', 'A'] :=
  C89_method_counterexample exArith _ .stock world disk ws (s := []) (t := [' ']) (method := []) (method' := []) (file := ['q']) (rest := [' ', 'A']) (c := 's') (by decide) (by decide)
    (method_example 's' (by decide)) (method_example 'L' (by decide))

example : htolCmd exArith .sum world disk years "q".toList = .ub ∧ htolCmd exArith .sum world disk years "q $NO".toList = .ub ∧
    htolCmd exArith .sum world disk years "nofile A".toList = .ub ∧ htolCmd exArith .sum world disk ⟨none, []⟩ "q A".toList = .ub := by decide +kernel

end Iode.ConvCmd
