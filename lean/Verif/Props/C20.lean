import Verif.Model.Save

/-!
# C20  A crash while saving never destroys both the old and the new version

`C20_one_save`: one save of a complete file, stopped anywhere. `C20_histories`: any number of saves, stopped anywhere.
Both require that the copy to the backup does not fail. After a crash the claim is false for the next save
(`C20_second_crash_counterexample`): its first act is to overwrite the only complete version, the backup, with the
incomplete file.
-/
namespace Iode
namespace Disk

/-- The version `v` is on the disk, complete. -/
def Holds (s : St) (v : List Byte) : Prop := s.main = some v ∨ s.backup = some v

/-- What the file and the backup contain at each stage. -/
def Inv (s : St) : Prop :=
  match s.phase with
  | .idle => s.main = s.last
  | .copy src k _ => s.main = some src ∧ s.last = some src ∧ s.backup = some (src.take k)
  | .write new k => s.main = some (new.take k) ∧ (s.last = none ∨ s.backup = s.last)

/-- Events of a history without failure: saves with the backup enabled, and progress. -/
def Normal : Event → Prop
  | .save _ enabled => enabled = true
  | .tick => True
  | _ => False

theorem inv_step {s : St} (h : Inv s) {e : Event} (he : Normal e) : Inv (step s e) := by
  cases e with
  | save new enabled =>
    have he : enabled = true := he
    subst he
    obtain ⟨main, backup, phase, last⟩ := s
    cases phase with
    | idle =>
      simp only [Inv] at h
      subst h
      cases main with
      | none => simp [step, start, openW, Inv]
      | some src => simp [step, start, Inv]
    | copy src k new' => exact h
    | write new' k => exact h
  | tick =>
    obtain ⟨main, backup, phase, last⟩ := s
    cases phase with
    | idle => exact h
    | copy src k new =>
      simp only [Inv] at h
      simp only [step]
      split
      · simp [Inv, h.1, h.2.1]
      · rename_i hk
        simp only [openW, Inv, List.take_zero, true_and]
        right
        rw [h.2.2, h.2.1, List.take_of_length_le (by omega)]
    | write new k =>
      simp only [Inv] at h
      simp only [step]
      split
      · exact ⟨rfl, h.2⟩
      · rename_i hk
        simp only [Inv]
        rw [h.1, List.take_of_length_le (by omega)]
  | copyFail => exact absurd he (by simp [Normal])
  | writeFail => exact absurd he (by simp [Normal])
  | crash => exact absurd he (by simp [Normal])

theorem inv_run {s : St} (h : Inv s) (es : List Event) (he : ∀ e ∈ es, Normal e) : Inv (run s es) := by
  induction es generalizing s with
  | nil => exact h
  | cons e es ih =>
    exact ih (inv_step h (he e List.mem_cons_self)) (fun e' h' => he e' (List.mem_cons_of_mem _ h'))

/-- **C20**, histories. Start from a disk where the file is the last complete version (or does not exist). After any number
    of saves and at any point in the middle of one, the process may stop: the last version that was completely written is
    still on the disk, complete, as the file or as its backup. -/
theorem C20_histories (s : St) (hs : s.phase = .idle) (hm : s.main = s.last) (es : List Event)
    (he : ∀ e ∈ es, Normal e) (v : List Byte) (hv : (run s es).last = some v) : Holds (step (run s es) .crash) v := by
  have hi : Inv s := by unfold Inv; rw [hs]; exact hm
  have h := inv_run hi es he
  generalize run s es = t at h hv ⊢
  obtain ⟨main, backup, phase, last⟩ := t
  simp only at hv
  subst hv
  cases phase with
  | idle => exact .inl h
  | copy src k new => exact .inl (h.1.trans h.2.1.symm)
  | write new k =>
    have h2 := h.2
    simp only [reduceCtorEq, false_or] at h2
    exact .inr h2

/-- Progress of one save by `n` bytes. -/
def ticks (n : Nat) : List Event := List.replicate n .tick

theorem ticks_normal (n : Nat) : ∀ e ∈ ticks n, Normal e := by
  intro e he
  rw [ticks, List.mem_replicate] at he
  rw [he.2]; trivial

theorem last_ticks (old new : List Byte) (n : Nat) : ∀ s : St, s.last = some old →
    (∀ src k new', s.phase = .copy src k new' → new' = new) → (∀ new' k, s.phase = .write new' k → new' = new) →
    (run s (ticks n)).last = some old ∨ ((run s (ticks n)).phase = .idle ∧ (run s (ticks n)).last = some new) := by
  induction n with
  | zero => intro s h _ _; exact .inl h
  | succ n ih =>
    intro s h h1 h2
    have hun : run s (ticks (n + 1)) = run (step s .tick) (ticks n) := by
      simp [run, ticks, List.replicate_succ]
    rw [hun]
    obtain ⟨main, backup, phase, last⟩ := s
    simp only at h
    subst h
    cases phase with
    | idle =>
      exact ih _ rfl (by simp [step]) (by simp [step])
    | copy src k new' =>
      have := h1 src k new' rfl
      subst this
      simp only [step]
      split
      · exact ih _ rfl (by simp) (by simp)
      · exact ih _ rfl (by simp [openW]) (by simp only [openW]; intro a b hab; cases hab; rfl)
    | write new' k =>
      have := h2 new' k rfl
      subst this
      simp only [step]
      split
      · exact ih _ rfl (by simp) (by intro a b hab; cases hab; rfl)
      · right
        have : ∀ (m : Nat) (t : St), t.phase = .idle → run t (ticks m) = t := by
          intro m
          induction m with
          | zero => intro t _; rfl
          | succ m ihm =>
            intro t ht
            have : step t .tick = t := by unfold step; rw [ht]
            simp only [run, ticks, List.replicate_succ, List.foldl_cons, this]
            exact ihm t ht
        rw [this n _ rfl]
        exact ⟨rfl, rfl⟩

/-- **C20**, one save. The file holds the version `old`, whatever the backup holds. A save of `new` that stops at any
    point leaves `old` complete in the file or in the backup, or `new` complete in the file. -/
theorem C20_one_save (old new : List Byte) (backup : Option (List Byte)) (n : Nat) :
    Holds (run ⟨some old, backup, .idle, some old⟩ (.save new true :: ticks n ++ [.crash])) old ∨
    (run ⟨some old, backup, .idle, some old⟩ (.save new true :: ticks n ++ [.crash])).main = some new := by
  have hr : run ⟨some old, backup, .idle, some old⟩ (.save new true :: ticks n ++ [.crash]) =
      step (run ⟨some old, backup, .idle, some old⟩ (.save new true :: ticks n)) .crash := by
    simp [run, List.foldl_append]
  rw [hr]
  have hN : ∀ e ∈ (Event.save new true :: ticks n), Normal e := by
    intro e he
    rcases List.mem_cons.1 he with rfl | he
    · rfl
    · exact ticks_normal n e he
  have hl := last_ticks old new n (start ⟨some old, backup, .idle, some old⟩ new true) rfl
    (by simp only [start]; intro a b c hab; cases hab; rfl) (by simp [start])
  have hrun : run (start ⟨some old, backup, .idle, some old⟩ new true) (ticks n) =
      run ⟨some old, backup, .idle, some old⟩ (.save new true :: ticks n) := rfl
  rw [hrun] at hl
  rcases hl with hl | ⟨hp, hl⟩
  · exact .inl (C20_histories _ rfl rfl _ hN old hl)
  · right
    have := inv_run (s := ⟨some old, backup, .idle, some old⟩) (by simp [Inv]) _ hN
    unfold Inv at this
    rw [hp] at this
    simp only [step]
    exact this.trans hl

example : Holds (run ⟨some [1, 2, 3], none, .idle, some [1, 2, 3]⟩ (.save [4, 5] true :: ticks 5 ++ [.crash])) [1, 2, 3] ∧
    (run ⟨some [1, 2, 3], none, .idle, some [1, 2, 3]⟩ (.save [4, 5] true :: ticks 5 ++ [.crash])).main = some [4] := by
  unfold Holds; decide

/-- A save that is not interrupted ends with the new version in the file and the old one in the backup. -/
example : run ⟨some [1, 2, 3], none, .idle, some [1, 2, 3]⟩ (.save [4, 5] true :: ticks 7) =
    ⟨some [4, 5], some [1, 2, 3], .idle, some [4, 5]⟩ := by decide

/-- After a crash (or a failed write, for instance a full disk) in the middle of the writing, the backup is the only
    complete version. The next save overwrites it with the incomplete file; if it is also interrupted, no complete version
    is left. -/
theorem C20_second_crash_counterexample :
    ∃ es : List Event, (∀ e ∈ es, e = .crash ∨ e = .writeFail ∨ Normal e) ∧
      let s := run ⟨some [1, 2, 3], none, .idle, some [1, 2, 3]⟩ es
      s.main = some [6] ∧ s.backup = some [4] ∧ s.last = some [1, 2, 3] := by
  refine ⟨[.save [4, 5] true] ++ ticks 5 ++ [.writeFail] ++ [.save [6, 7] true] ++ ticks 3 ++ [.crash], ?_, ?_⟩
  · intro e he
    simp [ticks, List.replicate_succ] at he
    rcases he with rfl | rfl | rfl | rfl | rfl | rfl <;> simp [Normal]
  · decide

/-- If the copy fails the save goes on, and both versions can be lost. -/
theorem C20_copy_failure_counterexample :
    let s := run ⟨some [1, 2, 3], none, .idle, some [1, 2, 3]⟩ ([.save [4, 5] true] ++ ticks 1 ++ [.copyFail] ++ ticks 1 ++ [.crash])
    s.main = some [4] ∧ s.backup = some [1] := by
  decide

end Disk
end Iode
