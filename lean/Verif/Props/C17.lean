import Verif.Lemmas.File
import Verif.Props.C16

/-!
# C17  Saved objects are read back unchanged

An object is a byte string whose first word is its own length, which is what every pack is (`C16_pack`,
`isPack_of_layout`). The compressor is any lossless one.
-/
namespace Iode
namespace BinFile

/-- A byte string the file format can hold: its first word is its length. -/
structure IsPack (W : Nat) (o : List Byte) : Prop where
  long : W ≤ o.length
  pos : 0 < o.length
  word : getWord W o = o.length

/-- A compressor that is lossless on strings of at most `N` bytes, whose output is not empty and has a size that fits a
    `long`. -/
structure Codec.Lossless (W N : Nat) (cod : Codec) : Prop where
  back : ∀ o : List Byte, o.length ≤ N → cod.dec (cod.enc o) = some o
  nonempty : ∀ o : List Byte, o.length ≤ N → (cod.enc o).length ≠ 0
  fits : ∀ o : List Byte, o.length ≤ N → 2 * ((cod.enc o).length : Int) ≤ 256 ^ W

/-- A name the table can hold: at most 20 non-null bytes. -/
def NameFits (n : List Char) : Prop := n.length ≤ 20 ∧ ∀ c ∈ n, 0 < c.toNat ∧ c.toNat < 256

variable {W N : Nat} {cod : Codec} {L : Layout}

theorem kwrite_ok {o : List Byte} (h : o.length ≠ 0) : kwrite o = .ok o := by
  unfold kwrite; rw [if_neg h]

theorem readZ_ok (hc : cod.Lossless W N) {o : List Byte} (hN : o.length ≤ N) (r : List Byte) (v : Int) :
    readZ W cod (cod.enc o).length (putWord W v ++ cod.enc o ++ r) = .ok (o, r) := by
  have hd : (putWord W v ++ cod.enc o ++ r).drop W = cod.enc o ++ r := by
    rw [List.append_assoc, List.drop_append_of_le_length (by rw [putWord_length]; omega)]
    rw [List.drop_of_length_le (by rw [putWord_length]; omega), List.nil_append]
  unfold readZ
  rw [hd, kread_append (hc.nonempty o hN)]
  simp only [hc.back o hN]

theorem readLen_z (hc : cod.Lossless W N) {o : List Byte} (hN : o.length ≤ N) (r : List Byte) :
    readLen W (putWord W (-((cod.enc o).length : Int)) ++ cod.enc o ++ r) = .ok (-((cod.enc o).length : Int)) := by
  unfold readLen
  rw [if_neg (by simp only [List.length_append, putWord_length]; omega), List.append_assoc, getWord_putWord]
  · have := hc.fits o hN; omega
  · have := pow_pos' W; omega

/-- A record is written, and read back whatever follows it in the file. -/
theorem record_back (hc : cod.Lossless W N) (compress : Bool) {o : List Byte} (ho : IsPack W o)
    (hN : o.length ≤ N) :
    ∃ e, cwrite W cod compress o 20 = .ok e ∧ ∀ r, readRecord W cod (e ++ r) = .ok (o, r) := by
  have hraw : ∀ r, readRecord W cod (o ++ r) = .ok (o, r) := by
    intro r
    have hl : readLen W (o ++ r) = .ok (o.length : Int) := by
      unfold readLen
      rw [if_neg (by simp only [List.length_append]; have := ho.long; omega), getWord_append ho.long, ho.word]
    unfold readRecord
    rw [hl]
    simp only
    rw [if_neg (by omega), Int.toNat_natCast, kread_append (by have := ho.pos; omega)]
  have hk := kwrite_ok (o := o) (by have := ho.pos; omega)
  unfold cwrite
  split
  · exact ⟨o, hk, hraw⟩
  · split
    · exact ⟨o, hk, hraw⟩
    · rw [kwrite_ok (hc.nonempty o hN)]
      refine ⟨_, rfl, fun r => ?_⟩
      unfold readRecord
      rw [readLen_z hc hN]
      have := hc.nonempty o hN
      simp only
      rw [if_pos (by omega), Int.neg_neg, Int.toNat_natCast, readZ_ok hc hN]

/-- The records of a sequence of objects are read back in order. -/
theorem records_back (hc : cod.Lossless W N) (compress : Bool) (m : SMap (List Byte))
    (hm : ∀ e ∈ m, IsPack W e.2 ∧ e.2.length ≤ N) : ∃ bs, records W cod compress (m.map Prod.snd) = .ok bs ∧
      ∀ acc r, loadLoop W cod acc (SMap.keys m) (bs ++ r) = .ok (m.foldl (fun a e => SMap.insert e.1 e.2 a) acc) := by
  induction m with
  | nil => exact ⟨[], rfl, fun acc r => rfl⟩
  | cons e l ih =>
    obtain ⟨bs, h1, h2⟩ := ih (fun e he => hm e (List.mem_cons_of_mem _ he))
    obtain ⟨b, h3, h4⟩ := record_back hc compress (hm e List.mem_cons_self).1 (hm e List.mem_cons_self).2
    refine ⟨b ++ bs, ?_, fun acc r => ?_⟩
    · simp only [List.map_cons, records, h1, h3]
    · simp only [SMap.keys, List.map_cons, loadLoop, List.append_assoc, h4, List.foldl_cons]
      exact h2 _ r

theorem entry_ok (junk : Nat → Byte) {n : List Char} (h : NameFits n) : ∃ e, entry L junk n = .ok e ∧ e.length = L.size ∧
    entryName L e = n := by
  unfold entry
  have h1 := h.1
  rw [if_neg (by omega)]
  refine ⟨_, rfl, ?_, ?_⟩
  · simp [Layout.size]; omega
  · have hd : (List.replicate L.off (0 : Byte) ++ List.map toByte n ++ [0] ++
        List.map junk (List.range (20 - n.length + L.pad))).drop L.off =
        n.map toByte ++ (0 :: List.map junk (List.range (20 - n.length + L.pad))) := by
      rw [List.append_assoc, List.append_assoc, List.drop_append_of_le_length (by simp)]
      simp
    unfold entryName
    rw [hd, List.takeWhile_append_of_pos]
    · simp only [List.takeWhile_cons, Fin.val_zero, ne_eq, not_true_eq_false, decide_false, Bool.false_eq_true,
        if_false, List.append_nil, List.map_map]
      conv => rhs; rw [← List.map_id n]
      apply List.map_congr_left
      intro c hcm
      have := h.2 c hcm
      simp only [Function.comp, toByte, id]
      rw [Nat.mod_eq_of_lt this.2, Char.ofNat_toNat]
    · intro b hb
      obtain ⟨c, hcm, rfl⟩ := List.mem_map.1 hb
      have := h.2 c hcm
      simp only [toByte, Nat.mod_eq_of_lt this.2, ne_eq, decide_not, Bool.not_eq_true', decide_eq_false_iff_not]
      omega

theorem table_ok (junk : Nat → Byte) (ns : List (List Char)) (h : ∀ n ∈ ns, NameFits n) :
    ∃ t, table L junk ns = .ok t ∧ t.length = L.size * ns.length ∧ tableNames L ns.length t = ns := by
  induction ns with
  | nil => exact ⟨[], rfl, by simp, rfl⟩
  | cons n ns ih =>
    obtain ⟨t, h1, h2, h3⟩ := ih (fun n hn => h n (List.mem_cons_of_mem _ hn))
    obtain ⟨e, h4, h5, h6⟩ := entry_ok (L := L) junk (h n List.mem_cons_self)
    refine ⟨e ++ t, by simp only [table, h4, h1], ?_, ?_⟩
    · simp only [List.length_append, h5, h2, List.length_cons, Nat.mul_add]; omega
    · simp only [List.length_cons, tableNames]
      rw [List.take_append_of_le_length (by omega), List.take_of_length_le (by omega), h6,
        List.drop_append_of_le_length (by omega), List.drop_of_length_le (by omega), List.nil_append, h3]

theorem layout_pos (L : Layout) : 0 < L.size := by unfold Layout.size; omega

/-- The names are read back, and the file is then at the first record. -/
theorem names_back (hc : cod.Lossless W N) (junk : Nat → Byte) (compress : Bool) (data : List Byte) {ns : List (List Char)}
    (hne : ns.length ≠ 0) (hN' : L.size * ns.length ≤ N) (h : ∀ n ∈ ns, NameFits n) : ∃ t b, table L junk ns = .ok t ∧
      cwrite W cod compress t (-1) = .ok b ∧ ∀ r, readNames W cod L ⟨ns.length, compress, data, b ++ r⟩ = .ok (ns, r) := by
  obtain ⟨t, h1, h2, h3⟩ := table_ok (L := L) junk ns h
  have hN : t.length ≤ N := by omega
  have ht : t.length ≠ 0 := by
    rw [h2]
    exact Nat.pos_iff_ne_zero.1 (Nat.mul_pos (layout_pos L) (by omega))
  refine ⟨t, if compress then putWord W (-((cod.enc t).length : Int)) ++ cod.enc t else t, h1, ?_, fun r => ?_⟩
  · unfold cwrite
    cases compress with
    | false => rw [if_pos (by simp)]; simp [kwrite_ok ht]
    | true =>
      rw [if_neg (by simp), if_neg (by omega), kwrite_ok (hc.nonempty t hN)]
      rfl
  · unfold readNames
    cases compress with
    | false =>
      simp only [Bool.false_eq_true, if_false, ← h2]
      rw [kread_append ht]
      simp only [Res.bind_ok, h2, if_true, h3]
    | true =>
      have : readTableZ W cod (putWord W (-((cod.enc t).length : Int)) ++ cod.enc t ++ r) = .ok (t, r) := by
        unfold readTableZ
        rw [readLen_z hc hN]
        have := hc.nonempty t hN
        simp only
        rw [if_neg (by omega), Int.neg_neg, Int.toNat_natCast, readZ_ok hc hN]
      simp only [if_true, this, Res.bind_ok, h2, h3]

/-- **C17**. Saving a non-empty workspace succeeds, compressed or not, and loading the file into an empty workspace gives
    the same names with the same objects, byte for byte. -/
theorem C17_save_load (hc : cod.Lossless W N) (junk : Nat → Byte) (compress : Bool) (data : List Byte)
    (m : SMap (List Byte)) (hne : m ≠ []) (hs : SMap.Sorted m) (hn : ∀ e ∈ m, NameFits e.1) (hp : ∀ e ∈ m, IsPack W e.2)
    (hN1 : L.size * m.length ≤ N) (hN2 : ∀ e ∈ m, e.2.length ≤ N) :
    ∃ f, save W cod L junk compress data m = .ok f ∧ f.compressed = compress ∧ f.data = data ∧ load W cod L [] f = .ok m := by
  have hl : (SMap.keys m).length = m.length := by simp [SMap.keys]
  have hlen : (SMap.keys m).length ≠ 0 := by
    simp [SMap.keys]; exact hne
  obtain ⟨t, b, h1, h2, h3⟩ := names_back (L := L) hc junk compress data hlen (by rw [hl]; exact hN1) (by
    intro n hn'
    obtain ⟨e, he, rfl⟩ := List.mem_map.1 hn'
    exact hn e he)
  obtain ⟨bs, h4, h5⟩ := records_back hc compress m (fun e he => ⟨hp e he, hN2 e he⟩)
  refine ⟨⟨m.length, compress, data, b ++ bs⟩, ?_, rfl, rfl, ?_⟩
  · unfold save
    rw [if_neg (by rw [← hl]; exact hlen), h1]
    simp only [Res.bind_ok, h2, h4]
  · unfold load
    have h3 := h3 bs
    rw [hl] at h3
    have h5 := h5 [] []
    rw [List.append_nil] at h5
    rw [h3]
    simp only [Res.bind_ok]
    rw [h5, foldl_insert_sorted m [] hs (by intro k hk; cases hk), List.nil_append]

/-- Saving an empty workspace is refused. -/
theorem C17_empty (junk : Nat → Byte) (compress : Bool) (data : List Byte) :
    save W cod L junk compress data [] = .err := by
  unfold save; rfl

/-- The bytes of a pack. -/
def packBytes (p : Pack) : List Byte := Pack.bytes p.mem 0 p.size

/-- Every pack can be stored in a file. -/
theorem isPack_of_layout (hW : 0 < W) {p : Pack} {es : List Pack.Elem} (h : Pack.Layout W p es)
    (hlt : 2 * p.size < 256 ^ W) : IsPack W (packBytes p) := by
  have hl : (packBytes p).length = p.size := by simp [packBytes, Pack.bytes]
  have hge : W ≤ p.size := by
    rw [h.size]
    have := Pack.header_gt es.length
    have h2 : W * 2 ≤ W * Pack.header es.length := Nat.mul_le_mul_left W (by omega)
    omega
  refine ⟨by omega, by omega, ?_⟩
  have hr : Pack.rd (mem (packBytes p)) 0 W = p.size := by
    rw [Pack.rd_congr (m' := p.mem) W]
    · have := h.w0
      unfold Pack.word at this
      rw [Nat.mul_zero] at this
      rw [this, h.size]
    · intro x _ hx
      have hx : x < p.size := by omega
      simp [mem, packBytes, Pack.bytes, List.getD_eq_getElem?_getD, hx]
  unfold getWord
  simp only [hr]
  rw [if_pos hlt, hl]

/-- A lossless compressor for the examples: after four bytes, a run of bytes 9 is replaced by its length. -/
def runCodec : Codec :=
  ⟨fun o => if o = o.take 4 ++ List.replicate (o.length - 4) 9 ∧ 4 ≤ o.length ∧ o.length < 256
      then 1 :: (Fin.ofNat 256 o.length) :: o.take 4 else 0 :: o,
   fun z => match z with
    | [] => none
    | b :: z => if b = 0 then some z else match z with
      | [] => none
      | n :: h => some (h ++ List.replicate (n.val - 4) 9)⟩

theorem runCodec_lossless : runCodec.Lossless 4 1000 := by
  refine ⟨fun o ho => ?_, fun o ho => ?_, fun o ho => ?_⟩
  · by_cases h : o = o.take 4 ++ List.replicate (o.length - 4) 9 ∧ 4 ≤ o.length ∧ o.length < 256
    · have hv : (Fin.ofNat 256 o.length).val = o.length := by simp [Nat.mod_eq_of_lt h.2.2]
      simp only [runCodec, if_pos h]
      rw [if_neg (by decide), hv]
      exact congrArg some h.1.symm
    · simp only [runCodec, if_neg h, if_true]
  · simp only [runCodec]
    split <;> simp
  · simp only [runCodec]
    split
    · simp; omega
    · simp; omega

/-- Two objects: one too short to be compressed, one that is compressed. -/
def exObjs : SMap (List Byte) :=
  [("A".toList, putWord 4 12 ++ putWord 4 0 ++ putWord 4 5), ("B_1".toList, putWord 4 30 ++ List.replicate 26 9)]

def exJunk : Nat → Byte := fun i => Fin.ofNat 256 (i * 37 + 11)

theorem exObjs_fit : exObjs ≠ [] ∧ SMap.Sorted exObjs ∧ (∀ e ∈ exObjs, NameFits e.1) ∧
    (∀ e ∈ exObjs, IsPack 4 e.2) ∧ (⟨4, 3⟩ : Layout).size * exObjs.length ≤ 1000 ∧ ∀ e ∈ exObjs, e.2.length ≤ 1000 := by
  refine ⟨by simp [exObjs], ⟨by simp [SMap.keys]; decide, by simp [SMap.keys], trivial⟩, ?_, ?_, by decide, ?_⟩
  · intro e he
    simp only [exObjs, List.mem_cons, List.not_mem_nil, or_false] at he
    rcases he with rfl | rfl <;> exact ⟨by decide, by decide⟩
  · intro e he
    simp only [exObjs, List.mem_cons, List.not_mem_nil, or_false] at he
    rcases he with rfl | rfl <;> exact ⟨by decide, by decide, by decide⟩
  · intro e he
    simp only [exObjs, List.mem_cons, List.not_mem_nil, or_false] at he
    rcases he with rfl | rfl <;> decide

example : ∃ f, save 4 runCodec ⟨4, 3⟩ exJunk true [1, 2] exObjs = .ok f ∧ f.compressed = true ∧ f.data = [1, 2] ∧
    load 4 runCodec ⟨4, 3⟩ [] f = .ok exObjs :=
  have h := exObjs_fit
  C17_save_load runCodec_lossless exJunk true [1, 2] exObjs h.1 h.2.1 h.2.2.1 h.2.2.2.1 h.2.2.2.2.1 h.2.2.2.2.2

/-- The compressed file is shorter: 20 bytes less for the second object, 5 more for the table of names. -/
example : (match save 4 runCodec ⟨4, 3⟩ exJunk true [] exObjs, save 4 runCodec ⟨4, 3⟩ exJunk false [] exObjs with
    | .ok f, .ok g => decide (f.body.length + 15 = g.body.length)
    | _, _ => false) = true := by decide +kernel

end BinFile
end Iode
