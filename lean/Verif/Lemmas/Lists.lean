import Verif.Model.Lists
import Verif.Lemmas.Text
import Verif.Lemmas.Names
import Verif.Lemmas.SMap

namespace Iode.Lists

theorem tblSize_table (ws : List Word) : tblSize (table ws) = .ok ws.length := by
  unfold table
  induction ws with
  | nil => rfl
  | cons w ws ih => simp [tblSize, ih, Res.bind]

/-- The insertion of a non-empty table, when it is defined, replaces the slot by the terms. -/
theorem insertTbl_table {pre rs a : List Word} {w : Cell} (ha : a ≠ [])
    (h : a.length = 1 ∨ rs.length < a.length) :
    insertTbl (pre.map .str ++ w :: (rs.map .str ++ [.null])) (pre.length + rs.length + 1) pre.length
      (table a) a.length = .ok (table (pre ++ a ++ rs)) := by
  have hal : 0 < a.length := List.length_pos_iff.mpr ha
  unfold insertTbl
  rw [if_neg (by omega), if_neg (by omega), if_neg (by omega)]
  simp only
  have hn : pre.length + rs.length + 1 - pre.length - 1 = rs.length := by omega
  rw [hn]
  congr 1
  have hres : resize (pre.map Cell.str ++ w :: (rs.map Cell.str ++ [Cell.null])) (pre.length + rs.length + 1 + a.length)
      = pre.map Cell.str ++ w :: (rs.map Cell.str ++ List.replicate a.length Cell.null) := by
    unfold resize
    rw [List.take_of_length_le (by simp; omega)]
    have : pre.length + rs.length + 1 + a.length - (pre.map Cell.str ++ w :: (rs.map Cell.str ++ [Cell.null])).length
        = a.length - 1 := by simp; omega
    rw [this]
    obtain ⟨k, hk⟩ : ∃ k, a.length = k + 1 := ⟨a.length - 1, by omega⟩
    rw [hk]
    simp [List.replicate_succ]
  rw [hres]
  have hdrop : ((pre.map Cell.str ++ w :: (rs.map Cell.str ++ List.replicate a.length Cell.null)).drop (pre.length + 1)).take rs.length
      = rs.map Cell.str := by
    have e : (pre.map Cell.str ++ w :: (rs.map Cell.str ++ List.replicate a.length Cell.null))
        = (pre.map Cell.str ++ [w]) ++ (rs.map Cell.str ++ List.replicate a.length Cell.null) := by simp
    rw [e, List.drop_append_of_le_length (by simp), List.drop_of_length_le (by simp)]
    simp
  rw [hdrop]
  -- the table as prefix, `a.length` slots, the shifted rest and the terminator
  obtain ⟨mid, hmid, hlen⟩ : ∃ mid : List Cell,
      blit (pre.map Cell.str ++ w :: (rs.map Cell.str ++ List.replicate a.length Cell.null)) (pre.length + a.length)
        (rs.map Cell.str) = pre.map Cell.str ++ mid ++ (rs.map Cell.str ++ [Cell.null]) ∧ mid.length = a.length := by
    refine ⟨(w :: (rs.map Cell.str ++ List.replicate a.length Cell.null)).take a.length, ?_, ?_⟩
    · unfold blit
      have h1 : (pre.map Cell.str ++ w :: (rs.map Cell.str ++ List.replicate a.length Cell.null)).take
          (pre.length + a.length) = pre.map Cell.str ++
            (w :: (rs.map Cell.str ++ List.replicate a.length Cell.null)).take a.length := by
        rw [List.take_append]
        congr 1
        · exact List.take_of_length_le (by simp)
        · congr 1; simp
      have h2 : (pre.map Cell.str ++ w :: (rs.map Cell.str ++ List.replicate a.length Cell.null)).drop
          (pre.length + a.length + (rs.map Cell.str).length) = [Cell.null] := by
        have e : (pre.map Cell.str ++ w :: (rs.map Cell.str ++ List.replicate a.length Cell.null))
            = (pre.map Cell.str ++ w :: (rs.map Cell.str ++ List.replicate (a.length - 1) Cell.null)) ++ [Cell.null] := by
          obtain ⟨k, hk⟩ : ∃ k, a.length = k + 1 := ⟨a.length - 1, by omega⟩
          rw [hk]
          simp only [Nat.add_sub_cancel, List.append_assoc, List.cons_append]
          rw [← List.replicate_succ']
        rw [e, List.drop_append_of_le_length (by simp; omega), List.drop_of_length_le (by simp; omega)]
        simp
      rw [h1, h2]
      simp
    · simp; omega
  rw [hmid]
  unfold blit
  have ht : (table a).take a.length = a.map Cell.str := by
    unfold table
    rw [List.take_append_of_le_length (by simp), List.take_of_length_le (by simp)]
  rw [ht]
  have h1 : (pre.map Cell.str ++ mid ++ (rs.map Cell.str ++ [Cell.null])).take pre.length = pre.map Cell.str := by
    rw [List.append_assoc, List.take_append_of_le_length (by simp), List.take_of_length_le (by simp)]
  have h2 : (pre.map Cell.str ++ mid ++ (rs.map Cell.str ++ [Cell.null])).drop
      (pre.length + (a.map Cell.str).length) = rs.map Cell.str ++ [Cell.null] := by
    rw [List.drop_append_of_le_length (by simp; omega), List.drop_of_length_le (by simp; omega)]
    simp
  rw [h1, h2]
  simp [table]

end Iode.Lists
