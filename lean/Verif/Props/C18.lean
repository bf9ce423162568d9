import Verif.Props.C17

/-!
# C18  Loading a list of names from a file loads these names' objects

False in general: see the three counterexamples. What holds (`C18_select_partial`) is the case of an uncompressed file and
of a strictly increasing list of names, each present in the file or after its last name.
-/
namespace Iode
namespace BinFile

variable {W N : Nat} {cod : Codec} {L : Layout}

/-- The bytes of the records of an uncompressed file. -/
def plain (m : SMap (List Byte)) : List Byte := (m.map Prod.snd).flatten

theorem records_plain (m : SMap (List Byte)) (hp : ∀ e ∈ m, IsPack W e.2) :
    records W cod false (m.map Prod.snd) = .ok (plain m) := by
  induction m with
  | nil => rfl
  | cons e l ih =>
    have h0 := (hp e List.mem_cons_self).pos
    have : cwrite W cod false e.2 20 = .ok e.2 := by
      unfold cwrite
      rw [if_pos (by simp), kwrite_ok (by omega)]
    simp only [List.map_cons, records, this, ih (fun e he => hp e (List.mem_cons_of_mem _ he)), plain, List.flatten_cons]

theorem readLen_plain {e : List Char × List Byte} (l : SMap (List Byte)) (he : IsPack W e.2) :
    readLen W (plain (e :: l)) = .ok (e.2.length : Int) := by
  unfold readLen plain
  rw [List.map_cons, List.flatten_cons, if_neg (by rw [List.length_append]; have := he.long; omega),
    getWord_append he.long, he.word]

theorem skip_plain (k : Nat) : ∀ (m : SMap (List Byte)) (len : Int), (∀ e ∈ m, IsPack W e.2) → k ≤ m.length →
    ∃ len', skip W len k (plain m) = .ok (len', plain (m.drop k)) := by
  induction k with
  | zero => intro m len _ _; exact ⟨len, rfl⟩
  | succ k ih =>
    intro m len hp hk
    cases m with
    | nil => simp at hk
    | cons e l =>
      have he := hp e List.mem_cons_self
      simp only [skip, readLen_plain l he]
      rw [if_neg (by omega), Int.toNat_natCast]
      have hd : (plain (e :: l)).drop e.2.length = plain l := by
        simp [plain]
      rw [hd]
      exact ih l _ (fun e he => hp e (List.mem_cons_of_mem _ he)) (by simpa using hk)

theorem drop_plain (c : Nat) (k : Nat) : ∀ (m : SMap (List Byte)), (∀ e ∈ m, e.2.length = c) → k ≤ m.length →
    (plain m).drop (c * k) = plain (m.drop k) := by
  induction k with
  | zero => intro m _ _; simp
  | succ k ih =>
    intro m hc hk
    cases m with
    | nil => simp at hk
    | cons e l =>
      have hd : (plain (e :: l)).drop c = plain l := by
        rw [← hc e List.mem_cons_self]; simp [plain]
      rw [List.drop_succ_cons, ← ih l (fun e he => hc e (List.mem_cons_of_mem _ he)) (by simpa using hk), ← hd,
        List.drop_drop, Nat.mul_add, Nat.mul_one, Nat.add_comm]

theorem indexOf_none {n : List Char} {ns : List (List Char)} (h : ∀ k ∈ ns, nameLt k n = true) : indexOf n ns = none := by
  induction ns with
  | nil => rfl
  | cons k ks ih =>
    simp only [indexOf]
    rw [if_pos (h k List.mem_cons_self), ih (fun k hk => h k (List.mem_cons_of_mem _ hk))]
    rfl

theorem indexOf_some {n : List Char} {o : List Byte} {m : SMap (List Byte)} (hs : SMap.Sorted m)
    (h : SMap.find n m = some o) : ∃ pos, indexOf n (SMap.keys m) = some pos ∧ m[pos]? = some (n, o) := by
  induction m with
  | nil => simp at h
  | cons e l ih =>
    obtain ⟨k, v⟩ := e
    obtain ⟨h1, h2⟩ := hs
    simp only [SMap.find] at h
    split at h
    · rename_i hk
      subst hk
      refine ⟨0, ?_, ?_⟩
      · simp only [SMap.keys, List.map_cons, indexOf, SMap.nameLt_irrefl, Bool.false_eq_true, if_false]
      · simp at h ⊢; exact h
    · obtain ⟨pos, h3, h4⟩ := ih h2 h
      have hlt := h1 n ((SMap.mem_keys_iff n l).2 ⟨o, h⟩)
      refine ⟨pos + 1, ?_, by simpa using h4⟩
      simp only [SMap.keys, List.map_cons, indexOf, hlt, if_true]
      simp only [SMap.keys] at h3
      rw [h3]; rfl

/-- Strictly increasing list of names. -/
def Increasing : List (List Char) → Prop
  | [] => True
  | n :: ns => (∀ k ∈ ns, nameLt n k = true) ∧ Increasing ns

theorem sorted_get_lt {m : SMap (List Byte)} (hs : SMap.Sorted m) {i j : Nat} {a b : List Char × List Byte}
    (hi : m[i]? = some a) (hj : m[j]? = some b) (h : nameLt a.1 b.1 = true) : i < j := by
  induction m generalizing i j with
  | nil => simp at hi
  | cons e l ih =>
    obtain ⟨k, v⟩ := e
    obtain ⟨h1, h2⟩ := hs
    cases i with
    | zero =>
      cases j with
      | zero =>
        simp at hi hj
        rw [← hi, ← hj, SMap.nameLt_irrefl] at h
        exact absurd h (by decide)
      | succ j => omega
    | succ i =>
      cases j with
      | zero =>
        simp at hi hj
        have ha := h1 a.1 (List.mem_map_of_mem (List.mem_of_getElem? hi))
        rw [← hj] at h
        have := SMap.nameLt_trans h ha
        simp only [SMap.nameLt_irrefl] at this
        exact absurd this (by decide)
      | succ j =>
        have := ih h2 (i := i) (j := j) (by simpa using hi) (by simpa using hj)
        omega

theorem sorted_get {m : SMap (List Byte)} (hs : SMap.Sorted m) {i j : Nat} {a b : List Char × List Byte} (hij : i < j)
    (hi : m[i]? = some a) (hj : m[j]? = some b) : nameLt a.1 b.1 = true := by
  induction m generalizing i j with
  | nil => simp at hi
  | cons e l ih =>
    obtain ⟨k, v⟩ := e
    obtain ⟨s1, s2⟩ := hs
    cases j with
    | zero => omega
    | succ j =>
      cases i with
      | zero =>
        simp at hi hj
        rw [← hi]
        exact s1 b.1 (List.mem_map_of_mem (List.mem_of_getElem? hj))
      | succ i => exact ih s2 (i := i) (j := j) (by omega) (by simpa using hi) (by simpa using hj)

theorem moveTo_plain {m : SMap (List Byte)} (hp : ∀ e ∈ m, IsPack W e.2) {fixed : Bool} {c : Nat}
    (hf : fixed = true → ∀ e ∈ m, e.2.length = c) {len : Int} (hl : fixed = true → len = c) {pos lpos : Nat}
    (h1 : lpos ≤ pos) (h2 : pos ≤ m.length) :
    ∃ len', moveTo W fixed false len pos lpos (plain (m.drop lpos)) = .ok (len', plain (m.drop pos)) := by
  have hd : (m.drop lpos).drop (pos - lpos) = m.drop pos := by
    rw [List.drop_drop]; congr 1; omega
  unfold moveTo
  cases fixed with
  | true =>
    rw [if_pos ⟨rfl, rfl⟩]
    split
    · have := hl rfl
      rw [if_neg (by omega), this, Int.toNat_natCast, drop_plain c (pos - lpos) _
        (fun e he => hf rfl e (List.mem_of_mem_drop he)) (by rw [List.length_drop]; omega), hd]
      exact ⟨_, rfl⟩
    · have : pos = lpos := by omega
      subst this
      exact ⟨_, rfl⟩
  | false =>
    rw [if_neg (by simp)]
    obtain ⟨len', h⟩ := skip_plain (pos - lpos) (m.drop lpos) len (fun e he => hp e (List.mem_of_mem_drop he))
      (by rw [List.length_drop]; omega)
    rw [h, hd]
    exact ⟨_, rfl⟩

theorem readRaw_plain {e : List Char × List Byte} (l : SMap (List Byte)) (he : IsPack W e.2) :
    readRaw W (plain (e :: l)) = .ok ((e.2.length : Int), e.2, plain l) := by
  unfold readRaw
  rw [readLen_plain l he]
  simp only
  rw [if_neg (by omega), Int.toNat_natCast]
  have : plain (e :: l) = e.2 ++ plain l := by simp [plain]
  rw [this, kread_append (by have := he.pos; omega)]

theorem someLoop_plain {m : SMap (List Byte)} (hs : SMap.Sorted m) (hp : ∀ e ∈ m, IsPack W e.2) {fixed : Bool} {c : Nat}
    (hf : fixed = true → ∀ e ∈ m, e.2.length = c) (wanted : List (List Char)) :
    ∀ (acc : SMap (List Byte)) (len : Int) (lpos : Nat), (fixed = true → len = c) → lpos ≤ m.length →
    Increasing wanted →
    (∀ n ∈ wanted, (∃ pos o, m[pos]? = some (n, o) ∧ lpos ≤ pos) ∨ ∀ k ∈ SMap.keys m, nameLt k n = true) →
    ∃ r, someLoop W fixed false (SMap.keys m) acc len lpos (plain (m.drop lpos)) wanted = .ok r ∧
      ∀ n, SMap.find n r = if n ∈ wanted ∧ SMap.has n m then SMap.find n m else SMap.find n acc := by
  induction wanted with
  | nil => intro acc len lpos _ _ _ _; exact ⟨acc, rfl, fun n => by simp⟩
  | cons n ns ih =>
    intro acc len lpos hl hlp hinc hw
    obtain ⟨hi1, hi2⟩ := hinc
    by_cases hin : ∀ k ∈ SMap.keys m, nameLt k n = true
    · simp only [someLoop, indexOf_none hin]
      obtain ⟨r, h1, h2⟩ := ih acc len lpos hl hlp hi2 (fun n hn => hw n (List.mem_cons_of_mem _ hn))
      refine ⟨r, h1, fun q => ?_⟩
      rw [h2 q]
      have hno : SMap.has n m = false := by
        cases hh : SMap.has n m with
        | false => rfl
        | true =>
          have := hin n ((SMap.has_iff_mem n m).1 hh)
          rw [SMap.nameLt_irrefl] at this
          exact absurd this (by decide)
      by_cases hq : q = n
      · subst hq; simp [hno]
      · simp [hq]
    · obtain ⟨pos0, o0, hg0, hge⟩ := (hw n List.mem_cons_self).resolve_right hin
      have hf0 : ∃ o, SMap.find n m = some o :=
        (SMap.mem_keys_iff n m).1 (List.mem_map.2 ⟨(n, o0), List.mem_of_getElem? hg0, rfl⟩)
      obtain ⟨o, ho⟩ := hf0
      obtain ⟨pos, hix, hg⟩ := indexOf_some hs ho
      have hpe : pos = pos0 := by
        rcases Nat.lt_trichotomy pos pos0 with h | h | h
        · have := sorted_get hs h hg hg0
          simp only [SMap.nameLt_irrefl] at this
          exact absurd this (by decide)
        · exact h
        · have := sorted_get hs h hg0 hg
          simp only [SMap.nameLt_irrefl] at this
          exact absurd this (by decide)
      have hlt : pos < m.length := (List.getElem?_eq_some_iff.1 hg).1
      obtain ⟨len1, hmv⟩ := moveTo_plain hp hf hl (pos := pos) (lpos := lpos) (by omega) (by omega)
      have hdr : m.drop pos = (n, o) :: m.drop (pos + 1) := by
        rw [List.drop_eq_getElem_cons hlt]
        congr 1
        exact (List.getElem?_eq_some_iff.1 hg).2
      have hmem : (n, o) ∈ m := List.mem_of_getElem? hg
      have hrd := readRaw_plain (e := (n, o)) (m.drop (pos + 1)) (hp _ hmem)
      simp only [someLoop, hix, hmv]
      rw [hdr, hrd]
      simp only
      obtain ⟨r, h1, h2⟩ := ih (SMap.insert n o acc) (o.length : Int) (pos + 1)
        (fun hfx => by have := hf hfx _ hmem; simp only at this; omega) (by omega) hi2 (by
          intro q hq
          rcases hw q (List.mem_cons_of_mem _ hq) with ⟨pq, oq, h3, h4⟩ | h3
          · left
            exact ⟨pq, oq, h3, sorted_get_lt hs hg h3 (hi1 q hq)⟩
          · exact .inr h3)
      refine ⟨r, h1, fun q => ?_⟩
      rw [h2 q, SMap.find_insert]
      have hhas : SMap.has n m = true := (SMap.has_iff n m).2 ⟨o, ho⟩
      by_cases hq : q = n
      · subst hq
        simp [hhas, ho]
      · simp [hq]

/-- **C18** (partial). From an uncompressed file, a strictly increasing list of names, each in the file or after its last
    name: every requested name of the file gets the object the file holds under that name; nothing else changes; names
    after the last one are skipped.

    Missing: compressed files, lists in another order and absent names that precede a name of the file, for all of which
    the claim is false (counterexamples below); absent names are never reported. -/
theorem C18_select_partial (hc : cod.Lossless W N) (junk : Nat → Byte) (data : List Byte) (m : SMap (List Byte))
    (hne : m ≠ []) (hs : SMap.Sorted m) (hn : ∀ e ∈ m, NameFits e.1) (hp : ∀ e ∈ m, IsPack W e.2)
    (hN : L.size * m.length ≤ N) (fixed : Bool) (hf : fixed = true → ∀ e ∈ m, ∀ e' ∈ m, e.2.length = e'.2.length)
    (acc : SMap (List Byte)) (wanted : List (List Char)) (hinc : Increasing wanted)
    (hw : ∀ n ∈ wanted, SMap.has n m = true ∨ ∀ k ∈ SMap.keys m, nameLt k n = true) :
    ∃ f r, save W cod L junk false data m = .ok f ∧ loadSome W cod L fixed acc f wanted = .ok r ∧
      ∀ n, SMap.find n r = if n ∈ wanted ∧ SMap.has n m then SMap.find n m else SMap.find n acc := by
  have hl : (SMap.keys m).length = m.length := by simp [SMap.keys]
  have hlen : (SMap.keys m).length ≠ 0 := by
    simp [SMap.keys]; exact hne
  obtain ⟨t, b, h1, h2, h3⟩ := names_back (L := L) hc junk false data hlen (by rw [hl]; exact hN) (by
    intro n hn'
    obtain ⟨e, he, rfl⟩ := List.mem_map.1 hn'
    exact hn e he)
  have h4 := records_plain (cod := cod) m hp
  obtain ⟨e0, l0, hm0⟩ : ∃ e0 l0, m = e0 :: l0 := by
    cases m with
    | nil => exact absurd rfl hne
    | cons e l => exact ⟨e, l, rfl⟩
  have hmem0 : e0 ∈ m := by rw [hm0]; exact List.mem_cons_self
  have h3 := h3 (plain m)
  rw [hl] at h3
  have hlenq : ∃ len : Int, (if fixed = true then readLen W (plain m) else .ok 0) = .ok len ∧
      (fixed = true → len = (e0.2.length : Int)) := by
    cases fixed with
    | true =>
      refine ⟨e0.2.length, ?_, fun _ => rfl⟩
      rw [if_pos rfl, hm0]
      exact readLen_plain l0 (hp e0 hmem0)
    | false => exact ⟨0, by simp, by simp⟩
  obtain ⟨len, hlen1, hlen2⟩ := hlenq
  obtain ⟨r, h5, h6⟩ := someLoop_plain hs hp (c := e0.2.length) (fixed := fixed)
    (fun hfx e he => hf hfx e he e0 hmem0) wanted acc len 0 hlen2 (by omega) hinc (by
      intro n hn'
      rcases hw n hn' with h | h
      · left
        obtain ⟨o, ho⟩ := (SMap.has_iff n m).1 h
        obtain ⟨pos, _, hg⟩ := indexOf_some hs ho
        exact ⟨pos, o, hg, by omega⟩
      · exact .inr h)
  refine ⟨⟨m.length, false, data, b ++ plain m⟩, r, ?_, ?_, h6⟩
  · unfold save
    rw [if_neg (by rw [← hl]; exact hlen), h1]
    simp only [Res.bind_ok, h2, h4]
  · unfold loadSome
    rw [h3]
    simp only [Res.bind_ok]
    cases fixed with
    | true =>
      simp only [if_true] at hlen1 ⊢
      rw [hlen1]
      exact h5
    | false =>
      simp only [Bool.false_eq_true, if_false, Res.ok.injEq] at hlen1 ⊢
      rw [hlen1]
      exact h5

/-! ## Witnesses -/

/-- A pack of 12 bytes. -/
def pk (b : Byte) : List Byte := putWord 4 12 ++ putWord 4 0 ++ [b, b, b, b]

def three : SMap (List Byte) := [("A".toList, pk 1), ("C".toList, pk 2), ("E".toList, pk 3)]

/-- The workspace of the examples meets the hypotheses. -/
theorem three_fit : three ≠ [] ∧ SMap.Sorted three ∧ (∀ e ∈ three, NameFits e.1) ∧ (∀ e ∈ three, IsPack 4 e.2) ∧
    (⟨4, 3⟩ : Layout).size * three.length ≤ 1000 ∧ ∀ e ∈ three, ∀ e' ∈ three, e.2.length = e'.2.length := by
  refine ⟨by simp [three], ⟨by simp [SMap.keys]; decide, by simp [SMap.keys]; decide, by simp [SMap.keys], trivial⟩,
    ?_, ?_, by decide, ?_⟩
  · intro e he
    simp only [three, List.mem_cons, List.not_mem_nil, or_false] at he
    rcases he with rfl | rfl | rfl <;> exact ⟨by decide, by decide⟩
  · intro e he
    simp only [three, List.mem_cons, List.not_mem_nil, or_false] at he
    rcases he with rfl | rfl | rfl <;> exact ⟨by decide, by decide, by decide⟩
  · decide

example : ∃ f r, save 4 runCodec ⟨4, 3⟩ exJunk false [] three = .ok f ∧
    loadSome 4 runCodec ⟨4, 3⟩ true [] f ["C".toList, "E".toList, "Z".toList] = .ok r ∧
    SMap.find "C".toList r = some (pk 2) ∧ SMap.find "E".toList r = some (pk 3) ∧ SMap.find "A".toList r = none ∧
    SMap.find "Z".toList r = none := by
  have h := three_fit
  obtain ⟨f, r, h1, h2, h3⟩ := C18_select_partial (L := ⟨4, 3⟩) runCodec_lossless exJunk [] three h.1 h.2.1 h.2.2.1
    h.2.2.2.1 h.2.2.2.2.1 true (fun _ => h.2.2.2.2.2) [] ["C".toList, "E".toList, "Z".toList]
    ⟨by decide, by decide, by decide, trivial⟩ (by decide)
  refine ⟨f, r, h1, h2, ?_, ?_, ?_, ?_⟩ <;> rw [h3] <;> decide

/-- Save `m`, then load the names `wanted`. -/
def saveSelect (fixed compress : Bool) (m : SMap (List Byte)) (wanted : List String) : Res (SMap (List Byte)) := do
  let f ← save 4 runCodec ⟨4, 3⟩ exJunk compress [] m
  loadSome 4 runCodec ⟨4, 3⟩ fixed [] f (wanted.map String.toList)

/-- An absent name is not reported: it is given the object of the next name of the file. -/
theorem C18_absent_counterexample : SMap.find "B".toList three = none ∧
    saveSelect true false three ["B"] = .ok [("B".toList, pk 2)] := by
  decide +kernel

/-- Names given in another order than the file's get other objects. -/
theorem C18_order_counterexample : SMap.find "A".toList three = some (pk 1) ∧
    saveSelect true false three ["C", "A"] = .ok [("A".toList, pk 3), ("C".toList, pk 2)] := by
  decide +kernel

/-- From a compressed file, the bytes given to `binary_to_obj` are the compressed ones. -/
theorem C18_compressed_counterexample :
    SMap.find "B_1".toList exObjs = some (putWord 4 30 ++ List.replicate 26 9) ∧
    saveSelect false true exObjs ["B_1"] =
      .ok [("B_1".toList, putWord 4 (-6) ++ runCodec.enc (putWord 4 30 ++ List.replicate 26 9))] := by
  decide +kernel

end BinFile
end Iode
