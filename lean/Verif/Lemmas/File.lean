import Verif.Model.File
import Verif.Lemmas.Pack
import Verif.Lemmas.SMap

/-!
# Lemmas on binary files
-/
namespace Iode
namespace BinFile

theorem putWord_length (W : Nat) (v : Int) : (putWord W v).length = W := by
  simp [putWord, Pack.bytes]

theorem mem_append_left {l r : List Byte} {i : Nat} (h : i < l.length) : mem (l ++ r) i = mem l i := by
  simp [mem, List.getD_eq_getElem?_getD, List.getElem?_append_left h]

theorem getWord_append {W : Nat} {l : List Byte} (h : W ≤ l.length) (r : List Byte) :
    getWord W (l ++ r) = getWord W l := by
  unfold getWord
  rw [Pack.rd_congr (m := mem (l ++ r)) (m' := mem l) W]
  intro x _ hx
  exact mem_append_left (by omega)

theorem pow_pos' (W : Nat) : (0 : Int) < 256 ^ W := by
  have : (0 : Int) < ((256 ^ W : Nat) : Int) := by
    have := Nat.pow_pos (n := W) (show 0 < 256 by decide)
    omega
  simpa using this

theorem getWord_putWord (W : Nat) (v : Int) (h1 : -(256 ^ W : Int) ≤ 2 * v) (h2 : 2 * v < 256 ^ W) (r : List Byte) :
    getWord W (putWord W v ++ r) = v := by
  rw [getWord_append (by rw [putWord_length]; omega)]
  unfold getWord
  have hp := pow_pos' W
  have hc : ((256 ^ W : Nat) : Int) = 256 ^ W := by simp
  have hm : Pack.rd (mem (putWord W v)) 0 W = (v % 256 ^ W).toNat := by
    rw [Pack.rd_congr (m' := Pack.wr (fun _ => 0) 0 (v % 256 ^ W).toNat W) W]
    · rw [Pack.rd_wr_same, Nat.mod_eq_of_lt]
      have := Int.emod_lt_of_pos v hp
      have := Int.emod_nonneg v (Int.ne_of_gt hp)
      omega
    · intro x _ hx
      have hx : x < W := by omega
      simp [mem, putWord, Pack.bytes, List.getD_eq_getElem?_getD, hx]
  have hnn := Int.emod_nonneg v (Int.ne_of_gt hp)
  simp only [hm]
  by_cases hv : 0 ≤ v
  · have : v % 256 ^ W = v := Int.emod_eq_of_lt hv (by omega)
    rw [this, if_pos (by omega)]; omega
  · have : v % 256 ^ W = v + 256 ^ W := by
      rw [← Int.add_emod_right, Int.emod_eq_of_lt] <;> omega
    rw [this, if_neg (by omega)]; omega

theorem kread_append {a : List Byte} (ha : a.length ≠ 0) (r : List Byte) : kread a.length (a ++ r) = .ok (a, r) := by
  unfold kread
  rw [if_neg (by simp; intro h; exact ha (by simp [h]))]
  simp

theorem insert_last {V : Type u} (k : List Char) (v : V) (m : SMap V) (h : ∀ k' ∈ SMap.keys m, nameLt k' k = true) :
    SMap.insert k v m = m ++ [(k, v)] := by
  induction m with
  | nil => rfl
  | cons e l ih =>
    obtain ⟨k', v'⟩ := e
    have h0 := h k' (by simp [SMap.keys])
    have hne : k ≠ k' := by
      intro he; subst he; rw [SMap.nameLt_irrefl] at h0; exact absurd h0 (by decide)
    have hlt : nameLt k k' = false := by
      cases hc : nameLt k k' with
      | false => rfl
      | true =>
        have := SMap.nameLt_trans hc h0
        rw [SMap.nameLt_irrefl] at this; exact absurd this (by decide)
    unfold SMap.insert
    rw [if_neg hne, if_neg (by simp [hlt]), ih (fun k2 hk2 => h k2 (by simp only [SMap.keys, List.map_cons, List.mem_cons]; exact .inr hk2))]
    rfl

/-- Filling an empty map with the entries of a sorted map gives this map. -/
theorem foldl_insert_sorted {V : Type u} (m : SMap V) : ∀ acc : SMap V, SMap.Sorted m →
    (∀ k ∈ SMap.keys acc, ∀ k' ∈ SMap.keys m, nameLt k k' = true) →
    m.foldl (fun a e => SMap.insert e.1 e.2 a) acc = acc ++ m := by
  induction m with
  | nil => intro acc _ _; simp
  | cons e l ih =>
    intro acc hs hlt
    obtain ⟨k, v⟩ := e
    obtain ⟨h1, h2⟩ := hs
    rw [List.foldl_cons, insert_last k v acc (fun k' hk' => hlt k' hk' k (by simp [SMap.keys])), ih _ h2]
    · simp
    · intro k1 hk1 k2 hk2
      simp only [SMap.keys, List.map_append, List.mem_append, List.map_cons, List.map_nil, List.mem_singleton] at hk1
      rcases hk1 with hk1 | hk1
      · exact hlt k1 hk1 k2 (by simp only [SMap.keys, List.map_cons, List.mem_cons]; exact .inr hk2)
      · subst hk1; exact h1 k2 hk2

end BinFile
end Iode
