import Verif.Lemmas.Obj
import Verif.Props.C02
import Verif.Props.C03

/-!
# C45  An object survives being saved in binary format

Save and load of a workspace of comments, lists, identities, scalars, variables or equations: the objects are written as
packs, the packs are put in the file and everything is read back. `W` is the size of a `long`, 4 or 8 bytes; the earlier
contents of the shared buffer, the padding bytes and the compressor are arbitrary.

The claim is false of equations with a non-ASCII comment (they cannot be saved, `C45_equation_comment_counterexample`) and
of equations whose estimation sample starts in a year that is a multiple of 256 (`C45_equation_sample_lost`).
-/
namespace Iode
namespace Obj
open Pack BinFile

/-- The object can be written and is read back unchanged from any block that begins with its pack. -/
def Survives {α : Type} (W N : Nat) (K : Kind α) (name : List Char) (x : α) : Prop :=
  ∃ es, K.write name x = .ok es ∧ packSize W es ≤ N ∧ ∀ q, Holds W q es → K.read name q = .ok (some x)

variable {W N : Nat} {cod : Codec} {L : BinFile.Layout} {cp : CodePage}

theorem packAll_back {α : Type} (hW : W = 4 ∨ W = 8) (hN : N < 2 ^ 31) (K : Kind α) (bufs : List Char → Nat → Nat → Byte)
    (m : SMap α) : (∀ e ∈ m, Survives W N K e.1 e.2) →
    ∃ r, packAll W K bufs m = .ok r ∧ SMap.keys r = SMap.keys m ∧ readAll K r = .ok m ∧ ∀ e ∈ r, IsPack W e.2 ∧ e.2.length ≤ N := by
  induction m with
  | nil => intro _; exact ⟨[], rfl, rfl, rfl, by simp⟩
  | cons e m ih =>
    intro h
    obtain ⟨n, x⟩ := e
    obtain ⟨es, hw, hs, hr⟩ := h (n, x) (by simp)
    simp only at hw hr
    obtain ⟨p, hp, hL⟩ := toPack_layout hW (bufs n) es (by omega)
    obtain ⟨r, h1, h2, h3, h4⟩ := ih (fun e he => h e (by simp [he]))
    have hsz : p.size = packSize W es := hL.size
    have hpow : 2 ^ 31 * 2 ≤ 256 ^ W := by rcases hW with h | h <;> subst h <;> decide
    refine ⟨(n, packList p) :: r, ?_, ?_, ?_, ?_⟩
    · simp only [packAll, hw, hp, h1, Res.bind]
    · simp only [SMap.keys, List.map_cons] at h2 ⊢; rw [h2]
    · have := hr ⟨(packList p).length, BinFile.mem (packList p)⟩ (holds_of_layout (by omega) hL
        (by simp [packList_length]) (fun x hx => mem_packList p hx))
      simp only [readAll, this, h3, Res.bind]
    · intro e he
      rcases List.mem_cons.1 he with rfl | he
      · exact ⟨isPack_of_layout (by omega) hL (by omega), by simp only [packList_length]; omega⟩
      · exact h4 e he

/-- **C45**, the part common to all kinds: if each object can be written and read back from its pack then saving the
    workspace succeeds and loading the file gives the workspace. -/
theorem C45_file {α : Type} (hW : W = 4 ∨ W = 8) (hN : N < 2 ^ 31) (hc : cod.Lossless W N) (junk : Nat → Byte)
    (bufs : List Char → Nat → Nat → Byte) (compress : Bool) (data : List Byte) (K : Kind α) (m : SMap α) (hne : m ≠ [])
    (hs : SMap.Sorted m) (hn : ∀ e ∈ m, NameFits e.1) (hN1 : L.size * m.length ≤ N)
    (hx : ∀ e ∈ m, Survives W N K e.1 e.2) :
    ∃ f, saveFile W cod L junk bufs compress data K m = .ok f ∧ f.compressed = compress ∧ f.data = data ∧
      loadFile W cod L K f = .ok m := by
  obtain ⟨r, h1, h2, h3, h4⟩ := packAll_back hW hN K bufs m hx
  have hlen : r.length = m.length := by
    have := congrArg List.length h2
    simpa [SMap.keys] using this
  have hr : r ≠ [] := by
    intro e; subst e
    exact hne (List.length_eq_zero_iff.1 hlen.symm)
  have hnr : ∀ e ∈ r, NameFits e.1 := by
    intro e he
    have : e.1 ∈ SMap.keys m := by rw [← h2]; exact List.mem_map.2 ⟨e, he, rfl⟩
    obtain ⟨e', he', e1⟩ := List.mem_map.1 this
    rw [← e1]; exact hn e' he'
  have hsr : SMap.Sorted r := by
    have key : ∀ {A B : Type} (a : SMap A) (b : SMap B), SMap.keys a = SMap.keys b → SMap.Sorted b → SMap.Sorted a := by
      intro A B a
      induction a with
      | nil => intro b _ _; trivial
      | cons x a ih =>
        intro b hk hb
        cases b with
        | nil => simp [SMap.keys] at hk
        | cons y b =>
          simp only [SMap.keys, List.map_cons, List.cons.injEq] at hk
          refine ⟨?_, ih b hk.2 hb.2⟩
          have := hb.1
          simp only [SMap.keys] at this ⊢
          rw [hk.1, hk.2]
          exact this
    exact key r m h2 hs
  obtain ⟨f, g1, g2, g3, g4⟩ := C17_save_load (L := L) hc junk compress data r hr hsr hnr (fun e he => (h4 e he).1)
    (by rw [hlen]; exact hN1) (fun e he => (h4 e he).2)
  refine ⟨f, ?_, g2, g3, ?_⟩
  · simp only [saveFile, h1, Res.bind, g1]
  · simp only [loadFile, g4, Res.bind, h3]

/-! ### Comments and lists -/

theorem pad_le (n : Nat) : n + (4 - n % 4) ≤ n + 4 := by omega

theorem text_survives (hW : W = 4 ∨ W = 8) {t o : Text} (h : Clean cp t o) (hN : o.length + 40 ≤ N) (name : List Char) :
    Survives W N (textKind W cp) name t := by
  refine ⟨[.data (o ++ [0])], ?_, ?_, ?_⟩
  · simp only [textKind, h.enc, Res.bind, cstr_id h.noNul]
  · simp only [packSize, room, List.length_cons, List.length_nil, Elem.lg, List.length_append]
    have : header 1 = 4 := rfl
    rcases hW with rfl | rfl <;> simp only [this] <;> omega
  · intro q hq
    have := strn_holds hq (i := 0) rfl (show (Elem.data (o ++ [0])).bytes = o ++ 0 :: [] from rfl) h.noNul
    simp only [textKind, this, Res.bind, h.dec]

/-- **C45** for comments and lists: texts that the code page can represent. -/
theorem C45_texts (hW : W = 4 ∨ W = 8) (hN : N < 2 ^ 31) (hc : cod.Lossless W N) (junk : Nat → Byte)
    (bufs : List Char → Nat → Nat → Byte) (compress : Bool) (data : List Byte) (m : SMap Text) (hne : m ≠ [])
    (hs : SMap.Sorted m) (hn : ∀ e ∈ m, NameFits e.1) (hN1 : L.size * m.length ≤ N)
    (hx : ∀ e ∈ m, ∃ o, Clean cp e.2 o ∧ o.length + 40 ≤ N) :
    ∃ f, saveFile W cod L junk bufs compress data (textKind W cp) m = .ok f ∧ f.compressed = compress ∧ f.data = data ∧
      loadFile W cod L (textKind W cp) f = .ok m :=
  C45_file hW hN hc junk bufs compress data _ m hne hs hn hN1
    (fun e he => by obtain ⟨o, h1, h2⟩ := hx e he; exact text_survives hW h1 h2 e.1)

/-! ### Identities -/

theorem clean_nonempty {t o : Text} (h : Clean cp t o) (ht : t ≠ []) : o ≠ [] := by
  intro e
  subst e
  have := h.dec
  simp only [oemToUtf8, List.isEmpty_nil, if_true, Res.ok.injEq] at this
  exact ht this.symm

/-- A formula that the code page can represent and that compiles in both encodings. -/
structure IdtOk (cp : CodePage) (valid : Text → Bool) (lec o : Text) : Prop where
  clean : Clean cp lec o
  ne : lec ≠ []
  v1 : valid lec = true
  v2 : valid o = true

theorem idt_survives (hW : W = 4 ∨ W = 8) {valid : Text → Bool} {t o : Text} (h : IdtOk cp valid t o) (hN : o.length + 44 ≤ N)
    (name : List Char) : Survives W N (idtKind W cp valid) name t := by
  refine ⟨[.data (o ++ [0]), .zeros 0], ?_, ?_, ?_⟩
  · simp only [idtKind, idtWrite, h.clean.enc, Res.bind, cstr_id h.clean.noNul, h.v2, if_true]
    rw [if_neg (by simpa using h.ne)]
  · simp only [packSize, room, List.length_cons, List.length_nil, Elem.lg, List.length_append]
    have : header 2 = 4 := rfl
    rcases hW with rfl | rfl <;> simp only [this] <;> omega
  · intro q hq
    have := strn_holds hq (i := 0) rfl (show (Elem.data (o ++ [0])).bytes = o ++ 0 :: [] from rfl) h.clean.noNul
    simp only [idtKind, this, Res.bind, h.clean.dec, idtSetLec, h.v1, if_true]

/-- **C45** for identities. -/
theorem C45_identities {valid : Text → Bool} (hW : W = 4 ∨ W = 8) (hN : N < 2 ^ 31) (hc : cod.Lossless W N) (junk : Nat → Byte)
    (bufs : List Char → Nat → Nat → Byte) (compress : Bool) (data : List Byte) (m : SMap Text) (hne : m ≠ [])
    (hs : SMap.Sorted m) (hn : ∀ e ∈ m, NameFits e.1) (hN1 : L.size * m.length ≤ N)
    (hx : ∀ e ∈ m, ∃ o, IdtOk cp valid e.2 o ∧ o.length + 44 ≤ N) :
    ∃ f, saveFile W cod L junk bufs compress data (idtKind W cp valid) m = .ok f ∧ f.compressed = compress ∧ f.data = data ∧
      loadFile W cod L (idtKind W cp valid) f = .ok m :=
  C45_file hW hN hc junk bufs compress data _ m hne hs hn hN1
    (fun e he => by obtain ⟨o, h1, h2⟩ := hx e he; exact idt_survives hW h1 h2 e.1)

/-- One identity whose formula is empty, which is what an identity with a malformed formula is, makes the whole workspace
    impossible to save. -/
theorem C45_identity_empty {valid : Text → Bool} (junk : Nat → Byte) (bufs : List Char → Nat → Nat → Byte) (compress : Bool)
    (data : List Byte) (m : SMap Text) (hm : ∃ e ∈ m, e.2 = []) (f : File) :
    saveFile W cod L junk bufs compress data (idtKind W cp valid) m ≠ .ok f := by
  have : ∀ r, packAll W (idtKind W cp valid) bufs m ≠ .ok r := by
    induction m with
    | nil => obtain ⟨e, he, _⟩ := hm; cases he
    | cons x m ih =>
      obtain ⟨n, t⟩ := x
      intro r hr
      unfold packAll at hr
      obtain ⟨es, h1, hr⟩ := bind_inv hr
      obtain ⟨p, _, hr⟩ := bind_inv hr
      obtain ⟨r', h3, _⟩ := bind_inv hr
      obtain ⟨e, he, h0⟩ := hm
      rcases List.mem_cons.1 he with rfl | he
      · simp only at h0
        subst h0
        simp [idtKind, idtWrite, utf8ToOem, Res.bind] at h1
      · exact ih ⟨e, he, h0⟩ r' h3
  intro h
  unfold saveFile at h
  cases h1 : packAll W (idtKind W cp valid) bufs m with
  | err => rw [h1] at h; cases h
  | ub => rw [h1] at h; cases h
  | ok r => exact this r h1

/-! ### Scalars and variables -/

theorem scl_survives (hW : W = 4 ∨ W = 8) {s : Scl} (h : Fits 8 s.value ∧ Fits 8 s.relax ∧ Fits 8 s.std) (hN : 64 ≤ N)
    (name : List Char) : Survives W N (sclKind W) name s := by
  have hl : (putWords 8 [s.value, s.relax, s.std]).length = 24 := putWords_length 8 _
  refine ⟨_, rfl, ?_, ?_⟩
  · simp only [packSize, room, List.length_cons, List.length_nil, Elem.lg, hl]
    have : header 1 = 4 := rfl
    rcases hW with rfl | rfl <;> simp only [this] <;> omega
  · intro q hq
    have hf := field_holds hq (i := 0) rfl
    obtain ⟨r, hp, _, _⟩ := hq.elem 0 _ rfl
    simp only [Elem.lg, hl, Elem.bytes] at hf hp
    simp only [sclKind]
    rw [show piece W q 0 = _ from hp] at hf ⊢
    simp only
    rw [show field 24 _ = _ from hf]
    simp only [Res.bind]
    have hg := getWords_putWords 8 [s.value, s.relax, s.std] (by
      intro v hv
      simp only [List.mem_cons, List.not_mem_nil, or_false] at hv
      rcases hv with rfl | rfl | rfl
      · exact h.1
      · exact h.2.1
      · exact h.2.2) []
    simp only [List.length_cons, List.length_nil, getWords, List.append_nil, List.drop_drop, Nat.reduceAdd, List.cons.injEq,
      and_true] at hg
    rw [hg.1, hg.2.1, hg.2.2]

/-- **C45** for scalars. -/
theorem C45_scalars (hW : W = 4 ∨ W = 8) (hN : N < 2 ^ 31) (hc : cod.Lossless W N) (junk : Nat → Byte)
    (bufs : List Char → Nat → Nat → Byte) (compress : Bool) (data : List Byte) (m : SMap Scl) (hne : m ≠ [])
    (hs : SMap.Sorted m) (hn : ∀ e ∈ m, NameFits e.1) (hN1 : L.size * m.length ≤ N) (hN2 : 64 ≤ N)
    (hx : ∀ e ∈ m, Fits 8 e.2.value ∧ Fits 8 e.2.relax ∧ Fits 8 e.2.std) :
    ∃ f, saveFile W cod L junk bufs compress data (sclKind W) m = .ok f ∧ f.compressed = compress ∧ f.data = data ∧
      loadFile W cod L (sclKind W) f = .ok m :=
  C45_file hW hN hc junk bufs compress data _ m hne hs hn hN1 (fun e he => scl_survives hW (hx e he) hN2 e.1)

theorem var_survives (hW : W = 4 ∨ W = 8) {n : Nat} {vs : List Int} (hn : vs.length = n) (h : ∀ v ∈ vs, Fits 8 v)
    (hN : 8 * n + 40 ≤ N) (name : List Char) : Survives W N (varKind W n) name vs := by
  have hl : (putWords 8 vs).length = 8 * n := by rw [putWords_length, hn]
  refine ⟨_, rfl, ?_, ?_⟩
  · simp only [packSize, room, List.length_cons, List.length_nil, Elem.lg, hl]
    have : header 1 = 4 := rfl
    rcases hW with rfl | rfl <;> simp only [this] <;> omega
  · intro q hq
    have hf := field_holds hq (i := 0) rfl
    obtain ⟨r, hp, _, _⟩ := hq.elem 0 _ rfl
    simp only [Elem.lg, hl, Elem.bytes] at hf hp
    simp only [varKind]
    rw [show piece W q 0 = _ from hp] at hf ⊢
    simp only
    rw [show field (8 * n) _ = _ from hf]
    simp only [Res.bind]
    have hg := getWords_putWords 8 vs h []
    rw [List.append_nil, hn] at hg
    rw [hg]

/-- **C45** for variables: each has one value per period of the sample, which the file restores first. -/
theorem C45_variables (hW : W = 4 ∨ W = 8) (hN : N < 2 ^ 31) (hc : cod.Lossless W N) (junk : Nat → Byte)
    (bufs : List Char → Nat → Nat → Byte) (compress : Bool) (data : List Byte) (n : Nat) (m : SMap (List Int)) (hne : m ≠ [])
    (hs : SMap.Sorted m) (hn : ∀ e ∈ m, NameFits e.1) (hN1 : L.size * m.length ≤ N) (hN2 : 8 * n + 40 ≤ N)
    (hx : ∀ e ∈ m, e.2.length = n ∧ ∀ v ∈ e.2, Fits 8 v) :
    ∃ f, saveFile W cod L junk bufs compress data (varKind W n) m = .ok f ∧ f.compressed = compress ∧ f.data = data ∧
      loadFile W cod L (varKind W n) f = .ok m :=
  C45_file hW hN hc junk bufs compress data _ m hne hs hn hN1
    (fun e he => var_survives hW (hx e he).1 (hx e he).2 hN2 e.1)

/-! ### Equations -/

/-- A period as the API makes them, with a year of four digits. -/
structure PerOk (p : Period) : Prop where
  wf : p.WF
  per : IsPeriodicity p.periodicity
  y1 : 1000 ≤ p.year
  y2 : p.year ≤ 9999

/-- The sample of an equation: unset, or the sample between two periods, which does not start in a multiple of 256. -/
def SampleOk (s : Sample) : Prop :=
  s = noSample ∨ (PerOk s.start ∧ PerOk s.stop ∧ s.start.year % 256 ≠ 0 ∧
    ∃ n : Nat, SpanOf s.start s.stop n ∧ n + 1 ≤ 32767 ∧ s.nb = n + 1)

/-- An equation that can be restored. -/
structure EqOk (W N : Nat) (cp : CodePage) (valid : List Char → Text → Bool) (name : List Char) (e : Eqn) : Prop where
  lec : ∃ o, Clean cp e.lec o ∧ o.length ≤ e.lec.length ∧ valid name o = true
  ne : e.lec ≠ []
  valid : valid name e.lec = true
  solved : Fits 1 e.solved
  method : 0 ≤ e.method ∧ e.method < 5
  sample : SampleOk e.sample
  comment : Clean cp e.comment e.comment
  block : (0 : Byte) ∉ e.block
  instr : ∃ o, Clean cp e.instruments o ∧ e.lec.length + e.comment.length + e.block.length + o.length + 400 ≤ N
  date : Fits W e.date
  ntests : e.tests.length = 20
  tests : ∀ v ∈ e.tests, Fits 4 v

theorem putSample_head (hW : 0 < W) (junk : List Byte) (s : Sample) (r : List Byte) :
    ∃ b l, putSample W junk s ++ r = b :: l ∧ ((b.val : Int) = s.start.year % 256) := by
  have hf := first_byte hW junk s
  have hlen : 0 < (putSample W junk s).length := by
    simp only [putSample, List.length_append, putPeriod_length]; omega
  cases hp : putSample W junk s with
  | nil => rw [hp] at hlen; simp at hlen
  | cons b l =>
    refine ⟨b, l ++ r, rfl, ?_⟩
    rw [← hf]
    simp only [predump, hp, List.cons_append, List.getD_cons_zero]

theorem sampleFits_of (hW : W = 4 ∨ W = 8) {s : Sample} (h1 : PerOk s.start) (h2 : PerOk s.stop) {n : Nat}
    (hn : n + 1 ≤ 32767) (hnb : s.nb = n + 1) : SampleFits W s := by
  have hpow : (2 : Int) ^ 31 * 2 ≤ 256 ^ W := by rcases hW with h | h <;> subst h <;> decide
  have step : ∀ {p : Period}, PerOk p → 1 ≤ p.step ∧ p.step ≤ 365 ∧ p.periodicity.toNat < 256 := by
    intro p hp
    obtain ⟨nb, hnb, h1, h2⟩ := hp.wf
    have := nbPeriodsPerYear_cases hnb
    have hper := hp.per
    simp only [IsPeriodicity, List.mem_cons, List.not_mem_nil, or_false] at hper
    refine ⟨h1, by omega, ?_⟩
    rcases hper with e | e | e | e | e | e <;> rw [e] <;> decide
  have s1 := step h1
  have s2 := step h2
  have y1 := h1.y1; have y2 := h1.y2; have y3 := h2.y1; have y4 := h2.y2
  refine ⟨?_, ?_, s1.2.2, ?_, ?_, s2.2.2, ?_⟩ <;> omega

theorem toChars_ne {p : Period} (h : PerOk p) : p.toChars.isEmpty = false := by
  have := C02_print_parse p h.wf h.per h.y1 h.y2
  cases hc : p.toChars with
  | nil => rw [hc] at this; cases this
  | cons a l => rfl

theorem setSample_ok {s : Sample} {n : Nat} (h1 : PerOk s.start) (h2 : PerOk s.stop) (hsp : SpanOf s.start s.stop n)
    (hn : n + 1 ≤ 32767) (hnb : s.nb = n + 1) (ws : Option Sample) :
    eqSetSample ws s.start.toChars s.stop.toChars = .ok s := by
  unfold eqSetSample
  simp only [toChars_ne h1, toChars_ne h2, Bool.false_and, Bool.or_self, Bool.false_eq_true, if_false]
  unfold Sample.ofStrings
  rw [C02_print_parse _ h1.wf h1.per h1.y1 h1.y2, C02_print_parse _ h2.wf h2.per h2.y1 h2.y2]
  simp only [Res.bind_ok]
  unfold Sample.ofPeriods
  rw [hsp.dist, Res.bind_ok, if_neg (by omega), toShort_of_le (by omega) (by omega), ← hnb]

theorem sample_back (hW : W = 4 ∨ W = 8) (junk pad r : List Byte) {s : Sample} (h : SampleOk s) (ws : Option Sample) :
    ∃ ps, eqReadSample W (2 * W + 1 + junk.length) (some (putSample W junk s ++ pad ++ r)) = .ok ps ∧
      eqSetSample ws ps.1.toChars ps.2.toChars = .ok s := by
  obtain ⟨b, l, hb, hv⟩ := putSample_head (W := W) (by omega) junk s (pad ++ r)
  rw [List.append_assoc, hb]
  rcases h with rfl | ⟨h1, h2, hy, n, hsp, hn, hnb⟩
  · have : b = 0 := by
      have : (b.val : Int) = 0 := by rw [hv]; rfl
      exact Fin.ext (by simpa using this)
    refine ⟨(noSample.start, noSample.stop), ?_, rfl⟩
    simp only [eqReadSample, this, if_true]
  · have hb0 : b ≠ 0 := by
      intro e; subst e
      exact hy (by rw [← hv]; rfl)
    have hfit := sampleFits_of hW h1 h2 hn hnb
    refine ⟨(s.start, s.stop), ?_, setSample_ok h1 h2 hsp hn hnb ws⟩
    simp only [eqReadSample, if_neg hb0]
    rw [← hb]
    have hlen : 2 * (2 * W + 1 + junk.length) + 2 ≤ (putSample W junk s).length := by
      simp only [putSample, List.length_append, putPeriod_length, putWord_length]; omega
    simp only [field]
    rw [if_neg (by simp only [List.length_append]; omega)]
    simp only [Res.bind]
    rw [List.take_append_of_le_length hlen]
    have e : (putSample W junk s).take (2 * (2 * W + 1 + junk.length) + 2) =
        putPeriod W junk s.start ++ putPeriod W junk s.stop ++ putWord 2 s.nb := by
      unfold putSample
      have hl : 2 * (2 * W + 1 + junk.length) + 2 =
          (putPeriod W junk s.start ++ putPeriod W junk s.stop ++ putWord 2 s.nb).length := by
        simp only [List.length_append, putPeriod_length, putWord_length]; omega
      rw [hl, List.take_left]
    rw [e]
    have g := getPeriod_putPeriod W junk
    have g1 := g (putPeriod W junk s.stop ++ putWord 2 s.nb) s.start hfit.year1 hfit.step1 hfit.per1
    have g2 := g (putWord 2 s.nb) s.stop hfit.year2 hfit.step2 hfit.per2
    simp only [getSample]
    rw [List.append_assoc, g1, drop_length_append (putPeriod_length W junk s.start).symm, g2]

theorem field_lg (hq : Holds W q es) {i : Nat} {bs : List Byte} {n : Nat} (he : es[i]? = some (.data bs)) (hn : bs.length = n) :
    field n (piece W q i) = .ok bs := by
  have := field_holds hq he
  simp only [Elem.lg, hn, Elem.bytes] at this
  exact this

theorem eq_survives (hW : W = 4 ∨ W = 8) {valid : List Char → Text → Bool} {nz : Noise} (hj : nz.junk.length ≤ 8)
    (hpad : nz.pad.length ≤ 8) (ws : Option Sample) {name : List Char} {e : Eqn} (h : EqOk W N cp valid name e) :
    Survives W N (eqKind W cp valid ws nz) name e := by
  obtain ⟨lo, hlo, hlen, hval⟩ := h.lec
  obtain ⟨io, hio, hN⟩ := h.instr
  refine ⟨[lecElem nz.slack e.lec.length lo, .zeros 0, .data (putWord 1 e.solved), .data (putWord 1 e.method),
        .data (putSample W nz.junk e.sample ++ nz.pad), strElem e.comment, strElem e.block, strElem io,
        .data (putWord W e.date), .data (putWords 4 e.tests)], ?_, ?_, ?_⟩
  · simp only [eqKind, eqWrite]
    rw [if_neg (by simpa using h.ne)]
    simp only [hlo.enc, h.comment.enc, hio.enc, Res.bind, hval, if_true]
  · have hs : ∀ t : Text, (strElem t).lg = t.length + 1 := by
      intro t; rw [← elem_bytes_length, strElem_bytes]; simp
    have hsl : (putSample W nz.junk e.sample ++ nz.pad).length ≤ 70 := by
      simp only [putSample, List.length_append, putPeriod_length, putWord_length, List.length_take]
      rcases hW with rfl | rfl <;> omega
    generalize hsg : (putSample W nz.junk e.sample ++ nz.pad).length = sl at hsl
    unfold packSize
    refine Nat.le_trans (Nat.add_le_add_left (room_le _) _) ?_
    simp only [List.map_cons, List.map_nil, List.sum_cons, List.sum_nil, hs]
    simp only [lecElem, Elem.lg, List.length_map,
      List.length_range, putWord_length, putWords_length, h.ntests, hsg, List.length_cons, List.length_nil]
    have : header 10 = 12 := rfl
    simp only [Nat.reduceAdd, this]
    rcases hW with rfl | rfl <;> omega
  · intro q hq
    obtain ⟨r0, hb0⟩ := lecElem_bytes nz.slack hlen
    have e0 := strn_holds hq (i := 0) rfl hb0 hlo.noNul
    have e5 := strn_holds hq (i := 5) rfl (strElem_bytes e.comment) h.comment.noNul
    have e6 := strn_holds hq (i := 6) rfl (strElem_bytes e.block) h.block
    have e7 := strn_holds hq (i := 7) rfl (strElem_bytes io) hio.noNul
    have e2 := field_lg hq (i := 2) (n := 1) rfl (putWord_length 1 e.solved)
    have e3 := field_lg hq (i := 3) (n := 1) rfl (putWord_length 1 e.method)
    have e8 := field_lg hq (i := 8) (n := W) rfl (putWord_length W e.date)
    have e9 := field_lg hq (i := 9) (n := 4 * 20) rfl (by rw [putWords_length, h.ntests])
    obtain ⟨r, hp4, _, _⟩ := hq.elem 4 _ rfl
    obtain ⟨ps, hps, hset⟩ := sample_back hW nz.junk nz.pad r h.sample ws
    have hp4' : piece W q 4 = some (putSample W nz.junk e.sample ++ nz.pad ++ r) := hp4
    have hm : eqMethod (getWord 1 (putWord 1 e.method)) = e.method := by
      have := h.method
      rw [getWord_putWord' (by constructor <;> omega)]
      exact if_pos h.method
    have ht := getWords_putWords 4 e.tests h.tests []
    rw [h.ntests, List.append_nil] at ht
    have hcm : eqSetComment cp e.comment = .ok e.comment := by
      unfold eqSetComment
      by_cases hc : e.comment = []
      · rw [hc]; rfl
      · rw [if_neg (by simpa using hc), h.comment.enc]
    have hsl : eqSetLec valid name e.lec = .ok e.lec := by
      unfold eqSetLec
      rw [if_neg (by simpa using h.ne), h.valid, if_pos rfl]
    simp only [eqKind, eqRead, e0, hlo.dec, e3, e5, h.comment.dec, e6, e7, hio.dec, hp4', hps, hset, hsl, hcm, e2, e8, e9,
      Res.bind, hm, ht, getWord_putWord' h.solved, getWord_putWord' h.date]

/-- **C45** for equations (partial): equations with an ASCII comment (`Clean cp c c`: conversion does not change it) whose
    estimation sample is unset or does not start in a multiple of 256. Missing: the others, for which the claim is false. -/
theorem C45_equations_partial {valid : List Char → Text → Bool} (hW : W = 4 ∨ W = 8) (hN : N < 2 ^ 31) (hc : cod.Lossless W N)
    (junk : Nat → Byte) (bufs : List Char → Nat → Nat → Byte) (compress : Bool) (data : List Byte) (nz : Noise)
    (hj : nz.junk.length ≤ 8) (hpad : nz.pad.length ≤ 8) (ws : Option Sample) (m : SMap Eqn) (hne : m ≠ [])
    (hs : SMap.Sorted m) (hn : ∀ e ∈ m, NameFits e.1) (hN1 : L.size * m.length ≤ N)
    (hx : ∀ e ∈ m, EqOk W N cp valid e.1 e.2) :
    ∃ f, saveFile W cod L junk bufs compress data (eqKind W cp valid ws nz) m = .ok f ∧ f.compressed = compress ∧
      f.data = data ∧ loadFile W cod L (eqKind W cp valid ws nz) f = .ok m :=
  C45_file hW hN hc junk bufs compress data _ m hne hs hn hN1 (fun e he => eq_survives hW hj hpad ws (hx e he))

/-- The estimation sample of an equation is lost when it starts in a multiple of 256: whatever the other fields, the
    equation that is read has no sample. -/
theorem C45_equation_sample_lost (hW : 0 < W) {valid : List Char → Text → Bool} {nz : Noise} (ws : Option Sample)
    {name : List Char} {e e' : Eqn} {es : List Elem} (hy : e.sample.start.year % 256 = 0)
    (hw : (eqKind W cp valid ws nz).write name e = .ok es) {q : Pack} (hq : Holds W q es)
    (hr : (eqKind W cp valid ws nz).read name q = .ok (some e')) : e'.sample = noSample := by
  have h4 : es[4]? = some (.data (putSample W nz.junk e.sample ++ nz.pad)) := by
    simp only [eqKind, eqWrite] at hw
    split at hw
    · cases hw
    · cases h1 : utf8ToOem cp e.lec with
      | err => rw [h1] at hw; cases hw
      | ub => rw [h1] at hw; cases hw
      | ok lo =>
        cases h2 : utf8ToOem cp e.comment with
        | err => rw [h1, h2] at hw; cases hw
        | ub => rw [h1, h2] at hw; cases hw
        | ok co =>
          cases h3 : utf8ToOem cp e.instruments with
          | err => rw [h1, h2, h3] at hw; cases hw
          | ub => rw [h1, h2, h3] at hw; cases hw
          | ok io =>
            rw [h1, h2, h3] at hw
            simp only [Res.bind] at hw
            split at hw
            · cases hw; rfl
            · cases hw
  obtain ⟨r, hp, _, _⟩ := hq.elem 4 _ h4
  simp only [Elem.bytes] at hp
  obtain ⟨b, l, hb, hv⟩ := putSample_head hW nz.junk e.sample (nz.pad ++ r)
  rw [List.append_assoc, hb] at hp
  have hb0 : b = 0 := by
    rw [hy] at hv
    exact Fin.ext (by simpa using hv)
  have hps : eqReadSample W (2 * W + 1 + nz.junk.length) (piece W q 4) = .ok (noSample.start, noSample.stop) := by
    rw [show piece W q 4 = some (b :: l) from hp]
    simp only [eqReadSample, hb0, if_true]
  have hset : eqSetSample ws noSample.start.toChars noSample.stop.toChars = .ok noSample := rfl
  simp only [eqKind, eqRead] at hr
  obtain ⟨_, _, hr⟩ := bind_inv hr
  obtain ⟨_, _, hr⟩ := bind_inv hr
  obtain ⟨_, _, hr⟩ := bind_inv hr
  obtain ⟨_, _, hr⟩ := bind_inv hr
  obtain ⟨_, _, hr⟩ := bind_inv hr
  obtain ⟨_, _, hr⟩ := bind_inv hr
  obtain ⟨_, _, hr⟩ := bind_inv hr
  obtain ⟨_, _, hr⟩ := bind_inv hr
  obtain ⟨ps, e1, hr⟩ := bind_inv hr
  obtain ⟨_, _, hr⟩ := bind_inv hr
  obtain ⟨s, e2, hr⟩ := bind_inv hr
  obtain ⟨_, _, hr⟩ := bind_inv hr
  obtain ⟨_, _, hr⟩ := bind_inv hr
  obtain ⟨_, _, hr⟩ := bind_inv hr
  obtain ⟨_, _, hr⟩ := bind_inv hr
  rw [hps] at e1
  cases e1
  rw [hset] at e2
  cases e2
  cases hr
  rfl

/-! ### Examples -/

/-- Part of code page 850: ASCII and the letter é (0x82, in UTF-8 0xC3 0xA9). -/
def encEx : Text → Option Text
  | [] => some []
  | 195 :: 169 :: r => (encEx r).map (130 :: ·)
  | b :: r => if b.val < 128 then (encEx r).map (b :: ·) else none

def decEx : Text → Option Text
  | [] => some []
  | b :: r => if b.val < 128 then (decEx r).map (b :: ·) else if b = 130 then (decEx r).map (fun t => 195 :: 169 :: t) else none

def cpEx : CodePage := ⟨encEx, decEx⟩

/-- ASCII text. -/
def tx (s : String) : Text := s.toList.map toByte

def exBufs : List Char → Nat → Nat → Byte := fun _ i j => Fin.ofNat 256 (i * 5 + j * 3 + 1)

/-- Two comments, one empty and one with a letter é. -/
def exCmt : SMap Text := [("A".toList, []), ("B_2".toList, tx "march" ++ [195, 169])]

example : ∃ f, saveFile 4 runCodec ⟨4, 3⟩ exJunk exBufs true [] (textKind 4 cpEx) exCmt = .ok f ∧ f.compressed = true ∧
    f.data = [] ∧ loadFile 4 runCodec ⟨4, 3⟩ (textKind 4 cpEx) f = .ok exCmt := by
  refine C45_texts (N := 1000) (Or.inl rfl) (by decide) runCodec_lossless exJunk exBufs true [] exCmt (by simp [exCmt])
    ⟨by simp [SMap.keys]; decide, by simp [SMap.keys], trivial⟩ ?_ (by decide) ?_
  · intro e he
    simp only [exCmt, List.mem_cons, List.not_mem_nil, or_false] at he
    rcases he with rfl | rfl <;> exact ⟨by decide, by decide⟩
  · intro e he
    simp only [exCmt, List.mem_cons, List.not_mem_nil, or_false] at he
    rcases he with rfl | rfl
    · exact ⟨[], ⟨by decide, by decide, by decide⟩, by decide⟩
    · exact ⟨tx "march" ++ [130], ⟨by decide, by decide, by decide⟩, by decide⟩

/-- A test of formulas for the examples: they begin with a capital letter. -/
def validEx (t : Text) : Bool := match t with
  | [] => false
  | b :: _ => 65 ≤ b.val && b.val ≤ 90

def exIdt : SMap Text := [("AB".toList, tx "A + B")]

example : ∃ f, saveFile 4 runCodec ⟨4, 3⟩ exJunk exBufs false [] (idtKind 4 cpEx validEx) exIdt = .ok f ∧ f.compressed = false ∧
    f.data = [] ∧ loadFile 4 runCodec ⟨4, 3⟩ (idtKind 4 cpEx validEx) f = .ok exIdt := by
  refine C45_identities (N := 1000) (Or.inl rfl) (by decide) runCodec_lossless exJunk exBufs false [] exIdt (by simp [exIdt])
    ⟨by simp [SMap.keys], trivial⟩ ?_ (by decide) ?_
  · intro e he
    simp only [exIdt, List.mem_cons, List.not_mem_nil, or_false] at he
    subst he; exact ⟨by decide, by decide⟩
  · intro e he
    simp only [exIdt, List.mem_cons, List.not_mem_nil, or_false] at he
    subst he
    exact ⟨tx "A + B", ⟨⟨by decide, by decide, by decide⟩, by decide, by decide, by decide⟩, by decide⟩

/-- The hypothesis of `C45_identity_empty`: an identity made from a malformed formula. -/
example : ∃ e ∈ [("AB".toList, tx "A + B"), ("C".toList, idtSetLec validEx (tx "+ + 1"))], e.2 = [] :=
  ⟨_, by simp only [List.mem_cons]; exact Or.inr (Or.inl rfl), by decide⟩

/-- The bit patterns of 0.9, 1.0 and NA (-2e37). -/
def exScl : SMap Scl := [("a".toList, ⟨4606281698874543309, 4607182418800017408, -4082303983106395976⟩)]

example : ∃ f, saveFile 4 runCodec ⟨4, 3⟩ exJunk exBufs true [] (sclKind 4) exScl = .ok f ∧ f.compressed = true ∧
    f.data = [] ∧ loadFile 4 runCodec ⟨4, 3⟩ (sclKind 4) f = .ok exScl := by
  refine C45_scalars (N := 1000) (Or.inl rfl) (by decide) runCodec_lossless exJunk exBufs true [] exScl (by simp [exScl])
    ⟨by simp [SMap.keys], trivial⟩ ?_ (by decide) (by decide) ?_
  · intro e he
    simp only [exScl, List.mem_cons, List.not_mem_nil, or_false] at he
    subst he; exact ⟨by decide, by decide⟩
  · intro e he
    simp only [exScl, List.mem_cons, List.not_mem_nil, or_false] at he
    subst he
    exact ⟨⟨by decide, by decide⟩, ⟨by decide, by decide⟩, ⟨by decide, by decide⟩⟩

def exVar : SMap (List Int) := [("X".toList, [1, -2, 3]), ("Y".toList, [4611686018427387904, 0, -9223372036854775808])]

example : ∃ f, saveFile 4 runCodec ⟨4, 3⟩ exJunk exBufs true [] (varKind 4 3) exVar = .ok f ∧ f.compressed = true ∧
    f.data = [] ∧ loadFile 4 runCodec ⟨4, 3⟩ (varKind 4 3) f = .ok exVar := by
  refine C45_variables (N := 1000) (Or.inl rfl) (by decide) runCodec_lossless exJunk exBufs true [] 3 exVar (by simp [exVar])
    ⟨by simp [SMap.keys]; decide, by simp [SMap.keys], trivial⟩ ?_ (by decide) (by decide) ?_
  · intro e he
    simp only [exVar, List.mem_cons, List.not_mem_nil, or_false] at he
    rcases he with rfl | rfl <;> exact ⟨by decide, by decide⟩
  · intro e he
    simp only [exVar, List.mem_cons, List.not_mem_nil, or_false] at he
    rcases he with rfl | rfl <;> exact ⟨by decide, by unfold Fits; decide⟩

def exNoise : Noise := ⟨fun j => Fin.ofNat 256 (7 * j + 1), [9, 9, 9], [5, 5]⟩

def validEq (_ : List Char) (t : Text) : Bool := validEx t

/-- An estimated equation with a letter é in its formula, and one never estimated. -/
def exEq : SMap Eqn :=
  [("A".toList, ⟨tx "A := B /* " ++ [195, 169] ++ tx " */", 1, 4, ⟨⟨2000, 1, 'Y'⟩, ⟨2010, 1, 'Y'⟩, 11⟩, tx "estimated", tx "A;B",
      tx "B[-1]", 20240618, List.replicate 20 1065353216⟩),
   ("B".toList, ⟨tx "B := 1", 0, 0, noSample, [], [], [], 0, List.replicate 20 0⟩)]

theorem exEq_ok : ∀ e ∈ exEq, EqOk 4 1000 cpEx validEq e.1 e.2 := by
  intro e he
  simp only [exEq, List.mem_cons, List.not_mem_nil, or_false] at he
  rcases he with rfl | rfl
  · refine ⟨⟨tx "A := B /* " ++ [130] ++ tx " */", ⟨by decide, by decide, by decide⟩, by decide, by decide⟩, by decide, by decide,
      by unfold Fits; decide, by decide, Or.inr ⟨?_, ?_, by decide, 10, ⟨?_, ?_, rfl, by decide⟩, by decide, by decide⟩,
      ⟨by decide, by decide, by decide⟩, by decide, ⟨tx "B[-1]", ⟨by decide, by decide, by decide⟩, by decide⟩,
      by unfold Fits; decide, by decide, by unfold Fits; decide⟩
    · exact ⟨⟨1, by decide, by decide, by decide⟩, by unfold IsPeriodicity; decide, by decide, by decide⟩
    · exact ⟨⟨1, by decide, by decide, by decide⟩, by unfold IsPeriodicity; decide, by decide, by decide⟩
    · exact ⟨1, by decide, by decide, by decide⟩
    · exact ⟨1, by decide, by decide, by decide⟩
  · exact ⟨⟨tx "B := 1", ⟨by decide, by decide, by decide⟩, by decide, by decide⟩, by decide, by decide, by unfold Fits; decide,
      by decide, Or.inl rfl, ⟨by decide, by decide, by decide⟩, by decide, ⟨[], ⟨by decide, by decide, by decide⟩, by decide⟩,
      by unfold Fits; decide, by decide, by unfold Fits; decide⟩

example : ∃ f, saveFile 4 runCodec ⟨4, 3⟩ exJunk exBufs true [] (eqKind 4 cpEx validEq none exNoise) exEq = .ok f ∧
    f.compressed = true ∧ f.data = [] ∧ loadFile 4 runCodec ⟨4, 3⟩ (eqKind 4 cpEx validEq none exNoise) f = .ok exEq := by
  refine C45_equations_partial (N := 1000) (Or.inl rfl) (by decide) runCodec_lossless exJunk exBufs true [] exNoise (by decide)
    (by decide) none exEq (by simp [exEq]) ⟨by simp [SMap.keys]; decide, by simp [SMap.keys], trivial⟩ ?_ (by decide) exEq_ok
  intro e he
  simp only [exEq, List.mem_cons, List.not_mem_nil, or_false] at he
  rcases he with rfl | rfl <;> exact ⟨by decide, by decide⟩

/-- An equation whose sample starts in 2048, and a second with a comment that has been stored in the OEM code page. -/
def exEq2048 : Eqn := ⟨tx "A := 1", 0, 0, ⟨⟨2048, 1, 'Y'⟩, ⟨2050, 1, 'Y'⟩, 3⟩, [], [], [], 0, List.replicate 20 0⟩
def exEqCmt (c : Text) : Eqn := ⟨tx "A := 1", 0, 0, noSample, c, [], [], 0, List.replicate 20 0⟩

/-- The hypotheses of `C45_equation_sample_lost`: the equation is written, and read without its sample. -/
example : (match (eqKind 4 cpEx validEq none exNoise).write "A".toList exEq2048 with
    | .ok es => match toPack 4 (exBufs []) es with
      | .ok p => decide ((eqKind 4 cpEx validEq none exNoise).read "A".toList p = .ok (some { exEq2048 with sample := noSample }))
      | _ => false
    | _ => false) = true := by decide +kernel

/-- The claim fails for an equation with a non-ASCII comment: the comment is accepted and stored, and then the equation
    cannot be saved. -/
theorem C45_equation_comment_counterexample : ∃ (cp : CodePage) (c o : Text), Clean cp c o ∧ eqSetComment cp c = .ok o ∧
    ∀ valid nz ws name, (eqKind 4 cp valid ws nz).write name (exEqCmt o) = .err := by
  refine ⟨cpEx, [195, 169], [130], ⟨by decide, by decide, by decide⟩, by decide, ?_⟩
  intro valid nz ws name
  rfl

/-- The comment of an equation that has been loaded is the text of the file, still in the OEM code page (when the code page
    is lossless on it). -/
theorem C45_equation_comment_loaded {W P : Nat} {cp : CodePage} {valid : List Char → Text → Bool} {ws : Option Sample}
    {name : List Char} {q : Pack} {e : Eqn} (h : eqRead W P cp valid ws name q = .ok (some e)) :
    ∃ co u, strn W q 5 = .ok co ∧ oemToUtf8 cp co = .ok u ∧
      (utf8ToOem cp u = .ok co → (u = [] → co = []) → e.comment = co) := by
  unfold eqRead at h
  obtain ⟨lo, _, h⟩ := bind_inv h
  obtain ⟨lec, _, h⟩ := bind_inv h
  obtain ⟨m, _, h⟩ := bind_inv h
  obtain ⟨co, hco, h⟩ := bind_inv h
  obtain ⟨u, hu, h⟩ := bind_inv h
  obtain ⟨block, _, h⟩ := bind_inv h
  obtain ⟨io, _, h⟩ := bind_inv h
  obtain ⟨instr, _, h⟩ := bind_inv h
  obtain ⟨ps, _, h⟩ := bind_inv h
  obtain ⟨lec', _, h⟩ := bind_inv h
  obtain ⟨sm, _, h⟩ := bind_inv h
  obtain ⟨cm, hcm, h⟩ := bind_inv h
  obtain ⟨s, _, h⟩ := bind_inv h
  obtain ⟨d, _, h⟩ := bind_inv h
  obtain ⟨t, _, h⟩ := bind_inv h
  cases h
  refine ⟨co, u, hco, hu, fun h1 h2 => ?_⟩
  show cm = co
  rw [eqSetComment] at hcm
  split at hcm
  · rename_i he
    rw [h2 (by simpa using he)]
    cases hcm; rfl
  · rw [h1] at hcm
    cases hcm; rfl

/-- An equation in a file with the comment é (byte 130). -/
example : (match toPack 4 (exBufs []) [strElem (tx "A := 1"), .data [0], .data [0], .data [0], .data [0], strElem [130],
      strElem [], strElem [], .data [0, 0, 0, 0], .data (List.replicate 80 0)] with
    | .ok p => match eqRead 4 9 cpEx validEq none "A".toList p with
      | .ok (some e) => decide (e.comment = [130])
      | _ => false
    | _ => false) = true := by decide +kernel

end Obj
end Iode
