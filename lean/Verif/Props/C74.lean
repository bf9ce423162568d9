import Verif.Lemmas.DataCmd
import Verif.Props.C23
import Verif.Props.C66
import Verif.Props.C68

/-!
# C74: the commands on data change the objects they name
-/
namespace Iode.DataCmd

open Iode.Args (Text Single Ordinary Fit pieces Usual)
open Iode.DataCmd.Written

/-- Only the object with this key is another one. -/
def Only {V : Type} (db db' : SMap V) (key : Text) (v : V) : Prop := SMap.find key db' = some v ∧ ∀ k, k ≠ key → SMap.find k db' = SMap.find k db

/-- No name of a comment differs from this one in its letters only. -/
def Clear {V : Type} (ty : ObjType) (db : SMap V) (w : Text) : Prop := ty = .comments → ∀ k ∈ db.keys, toLower k = toLower w → k = w

theorem only_insert {V : Type} (db : SMap V) (key : Text) (v : V) : Only db (db.insert key v) key v :=
  ⟨SMap.find_insert_self _ _ _, fun _ hk => SMap.find_insert_ne _ _ hk⟩

theorem has_eq {V : Type} {ty : ObjType} {db : SMap V} {w : Text} (hw : Typed ty w) (hc : Clear ty db w) : has ty db w = SMap.has (toKey ty w) db := by
  cases ty with
  | comments =>
    have hk : toKey .comments w = w := by simp [toKey, ObjType.mode, hw.1]
    unfold has
    simp only []
    rw [hw.1, hk, Bool.eq_iff_iff, SMap.has_iff_mem, List.any_eq_true]
    constructor
    · rintro ⟨k, h1, h2⟩
      rw [← hc rfl k h1 (by simpa using h2)]
      exact h1
    · intro h
      exact ⟨w, h, by simp⟩
  | _ => rfl

theorem key_key {ty : ObjType} {w : Text} (hw : Typed ty w) : toKey ty (toKey ty w) = toKey ty w := toKey_of_checkName hw.2

theorem typed_key {ty : ObjType} {w : Text} (hw : Typed ty w) : Typed ty (toKey ty w) :=
  ⟨trim_eq_self fun c hc => (nameTailOk_facts ((checkName_chars hw.2).2.2 c hc)).1, by rw [key_key hw]; exact hw.2⟩

theorem typed_word {ty : ObjType} {w : Text} (hw : Typed ty w) : Single Args.seps w ∧ Ordinary w := by
  have h := name_chars hw
  refine ⟨⟨(name_length hw).2, fun c hc => ⟨fun hm => h c hc ?_, fun e => h c hc (by subst e; decide)⟩, ?_⟩, fun e => ?_, fun e => ?_⟩
  · unfold Args.seps at hm
    simp only [List.mem_cons, List.not_mem_nil, or_false] at hm
    rcases hm with rfl | rfl | rfl | rfl | rfl | rfl <;> decide
  · have := (name_length hw).1; omega
  · exact h _ (List.mem_of_mem_head? e) (by decide)
  · exact h _ (List.mem_of_mem_head? e) (by decide)

/-- Names separated in any way are read. -/
theorem init_names {W : Args.World} (hW : W.sp = Args.seps) {arg : Text} (hq : '"' ∉ arg) {ty : ObjType} (h : ∀ w ∈ pieces Args.seps arg, Typed ty w) :
    Args.init W arg = .ok (some (pieces Args.seps arg)) := by
  rw [← hW]
  refine Args.C64_arguments (by rw [hW]; exact LstCalc.usual_seps) ⟨hq, ?_⟩ (LstCalc.means_plain W 10 ?_)
  · rw [hW]; exact fun w hw => (typed_word (h w hw)).1.2.2
  · rw [hW]; exact fun w hw => (typed_word (h w hw)).2

theorem init_one {W : Args.World} (hW : W.sp = Args.seps) {ty : ObjType} {w : Text} (hw : Typed ty w) : Args.init W w = .ok (some [w]) := by
  have h1 := (typed_word hw).1
  have hp : pieces Args.seps w = [w] := Args.pieces_end (fun c hc => (h1.2.1 c hc).1) h1.1
  have := init_names (W := W) hW (arg := w) (fun hq => (h1.2.1 _ hq).2 rfl) (ty := ty) (by rw [hp]; simpa using hw)
  rwa [hp] at this

/-! ## Create and delete -/

theorem create1_new {V : Type} {ty : ObjType} {fresh : Text → Res (Option V)} {db : SMap V} {w : Text} {v : V} (hw : Typed ty w) (hc : Clear ty db w)
    (hn : SMap.find (toKey ty w) db = none) (hf : fresh w = .ok (some v)) : create1 ty fresh db w = .done (db.insert (toKey ty w) v) := by
  unfold create1
  rw [has_eq hw hc, (SMap.has_false_iff _ _).mpr hn, hf]
  simp [put, hw.2]

theorem ensure_new {V : Type} {W : Args.World} (hW : W.sp = Args.seps) {ty : ObjType} {fresh : Text → Res (Option V)} {db : SMap V} {w : Text} {v : V} (hw : Typed ty w)
    (hc : Clear ty db w) (hf : fresh w = .ok (some v)) :
    ∃ db1, ensure W ty fresh db w = .done db1 ∧ SMap.find (toKey ty w) db1 = some ((SMap.find (toKey ty w) db).getD v) ∧
      (∀ k, k ≠ toKey ty w → SMap.find k db1 = SMap.find k db) := by
  unfold ensure
  rw [has_eq hw hc]
  cases h : SMap.find (toKey ty w) db with
  | some x =>
    rw [if_pos ((SMap.has_iff _ _).mpr ⟨x, h⟩)]
    exact ⟨db, rfl, by rw [h]; rfl, fun _ _ => rfl⟩
  | none =>
    rw [(SMap.has_false_iff _ _).mpr h]
    refine ⟨db.insert (toKey ty w) v, ?_, SMap.find_insert_self _ _ _, fun _ hk => SMap.find_insert_ne _ _ hk⟩
    simp only [Bool.false_eq_true, if_false, create, ainitLoop, init_one hW hw, loop]
    rw [create1_new hw hc h hf]

theorem clear_of {V : Type} {ty : ObjType} (h : ty ≠ .comments) (db : SMap V) (w : Text) : Clear ty db w := fun e => absurd e h

theorem create_loop {V : Type} {ty : ObjType} (ht : ty ≠ .comments) {fresh : Text → Res (Option V)} {new : Text → V} : ∀ (ws : List Text) (db : SMap V),
    (∀ w ∈ ws, Typed ty w ∧ fresh w = .ok (some (new w))) → (ws.map (toKey ty)).Nodup → (∀ w ∈ ws, SMap.find (toKey ty w) db = none) →
    ∃ db', (∀ rest, loop (create1 ty fresh) (ws ++ rest) db = loop (create1 ty fresh) rest db') ∧ (∀ w ∈ ws, SMap.find (toKey ty w) db' = some (new w)) ∧
      ∀ k, k ∉ ws.map (toKey ty) → SMap.find k db' = SMap.find k db
  | [], db, _, _, _ => ⟨db, fun _ => rfl, by simp, fun _ _ => rfl⟩
  | w :: ws, db, hf, hd, hn => by
    simp only [List.map_cons, List.nodup_cons] at hd
    obtain ⟨db', h1, h2, h3⟩ := create_loop ht ws (db.insert (toKey ty w) (new w)) (fun v hv => hf v (by simp [hv])) hd.2 (fun v hv => by
      rw [SMap.find_insert_ne _ _ (show toKey ty v ≠ toKey ty w from fun e => hd.1 (List.mem_map.mpr ⟨v, hv, e⟩))]
      exact hn v (by simp [hv]))
    refine ⟨db', fun rest => ?_, fun v hv => ?_, fun k hk => ?_⟩
    · rw [List.cons_append, loop, create1_new (hf w (by simp)).1 (clear_of ht _ _) (hn w (by simp)) (hf w (by simp)).2]
      exact h1 rest
    · rcases List.mem_cons.mp hv with rfl | hv
      · rw [h3 _ hd.1, SMap.find_insert_self]
      · exact h2 v hv
    · simp only [List.map_cons, List.mem_cons, not_or] at hk
      rw [h3 k hk.2, SMap.find_insert_ne _ _ hk.1]

/-- `$DataCreate` makes an object for each new name and leaves the others. -/
theorem C74_create {V : Type} {W : Args.World} (hW : W.sp = Args.seps) {ty : ObjType} (ht : ty ≠ .comments) {fresh : Text → Res (Option V)} {new : Text → V} {db : SMap V} {arg : Text}
    (hq : '"' ∉ arg) {names : List Text} (hp : pieces Args.seps arg = names) (hn : ∀ w ∈ names, Typed ty w ∧ fresh w = .ok (some (new w)) ∧ SMap.find (toKey ty w) db = none)
    (hd : (names.map (toKey ty)).Nodup) :
    ∃ db', create W ty fresh db arg = .done db' ∧ (∀ w ∈ names, SMap.find (toKey ty w) db' = some (new w)) ∧
      ∀ k, k ∉ names.map (toKey ty) → SMap.find k db' = SMap.find k db := by
  subst hp
  obtain ⟨db', h1, h2, h3⟩ := create_loop ht _ db (fun w hw => ⟨(hn w hw).1, (hn w hw).2.1⟩) hd (fun w hw => (hn w hw).2.2)
  refine ⟨db', ?_, h2, h3⟩
  unfold create ainitLoop
  rw [init_names hW hq fun w hw => (hn w hw).1]
  have := h1 []
  rw [List.append_nil] at this
  exact this

/-- At a name that exists `$DataCreate` fails: the objects in front of it are made, those behind it are not. -/
theorem C74_create_exists {V : Type} {W : Args.World} (hW : W.sp = Args.seps) {ty : ObjType} (ht : ty ≠ .comments) {fresh : Text → Res (Option V)} {new : Text → V} {db : SMap V} {arg : Text}
    (hq : '"' ∉ arg) {before behind : List Text} {w : Text} (hp : pieces Args.seps arg = before ++ w :: behind)
    (hn : ∀ w ∈ before, fresh w = .ok (some (new w)) ∧ SMap.find (toKey ty w) db = none) (ha : ∀ v ∈ before ++ w :: behind, Typed ty v)
    (hd : (before.map (toKey ty)).Nodup) (he : SMap.find (toKey ty w) db ≠ none ∨ toKey ty w ∈ before.map (toKey ty)) :
    ∃ db', create W ty fresh db arg = .failed db' ∧ (∀ w ∈ before, SMap.find (toKey ty w) db' = some (new w)) ∧
      ∀ k, k ∉ before.map (toKey ty) → SMap.find k db' = SMap.find k db := by
  obtain ⟨db', h1, h2, h3⟩ := create_loop ht before db (fun w hw => ⟨ha w (by simp [hw]), (hn w hw).1⟩) hd (fun w hw => (hn w hw).2)
  refine ⟨db', ?_, h2, h3⟩
  unfold create ainitLoop
  rw [init_names hW hq (by rw [hp]; exact ha), hp]
  simp only []
  rw [h1, loop]
  have hw : has ty db' w = true := by
    rw [has_eq (ha w (by simp)) (clear_of ht _ _), SMap.has_iff]
    by_cases hm : toKey ty w ∈ before.map (toKey ty)
    · obtain ⟨v, hv, e⟩ := List.mem_map.mp hm
      exact ⟨_, e ▸ h2 v hv⟩
    · rw [h3 _ hm]
      rcases he with he | he
      · exact Option.ne_none_iff_exists'.mp he
      · exact absurd he hm
  simp [create1, hw]

/-- `$DataCreateVar` makes variables without any value in the whole sample. -/
theorem C74_create_variables {F : Type} {W : Args.World} (hW : W.sp = Args.seps) {s : Sample} {db : SMap (List (Option F))} {arg : Text} (hq : '"' ∉ arg) {names : List Text}
    (hp : pieces Args.seps arg = names) (hn : ∀ w ∈ names, Typed .variables w ∧ SMap.find (toKey .variables w) db = none) (hd : (names.map (toKey .variables)).Nodup) :
    ∃ db', create W .variables (freshVar (some s)) db arg = .done db' ∧
      (∀ w ∈ names, ∃ x, SMap.find (toKey .variables w) db' = some x ∧ x.length = s.nb.toNat ∧ ∀ v ∈ x, v = none) ∧
      ∀ k, k ∉ names.map (toKey .variables) → SMap.find k db' = SMap.find k db := by
  obtain ⟨db', h1, h2, h3⟩ := C74_create hW (by decide) (fresh := freshVar (F := F) (some s)) (new := fun _ => List.replicate s.nb.toNat none) hq hp
    (fun w hw => ⟨(hn w hw).1, rfl, (hn w hw).2⟩) hd
  exact ⟨db', h1, fun w hw => ⟨_, h2 w hw, by simp, fun v hv => List.eq_of_mem_replicate hv⟩, h3⟩

theorem delete_loop {V : Type} {ty : ObjType} (ht : ty ≠ .comments) : ∀ (ws : List Text) (db : SMap V), (∀ w ∈ ws, SMap.find (toKey ty w) db ≠ none) →
    (ws.map (toKey ty)).Nodup → ∃ db', (∀ rest, loop (delete1 ty) (ws ++ rest) db = loop (delete1 ty) rest db') ∧
      ∀ k, SMap.find k db' = if k ∈ ws.map (toKey ty) then none else SMap.find k db
  | [], db, _, _ => ⟨db, fun _ => rfl, by simp⟩
  | w :: ws, db, hn, hd => by
    simp only [List.map_cons, List.nodup_cons] at hd
    obtain ⟨db', h1, h2⟩ := delete_loop ht ws (db.erase (toKey ty w)) (fun v hv => by
      rw [SMap.find_erase, if_neg (show toKey ty v ≠ toKey ty w from fun e => hd.1 (List.mem_map.mpr ⟨v, hv, e⟩))]
      exact hn v (by simp [hv])) hd.2
    refine ⟨db', fun rest => ?_, fun k => ?_⟩
    · have hh : has ty db w = true := by
        have : has ty db w = SMap.has (toKey ty w) db := by cases ty <;> first | rfl | exact absurd rfl ht
        rw [this, SMap.has_iff]
        exact Option.ne_none_iff_exists'.mp (hn w (by simp))
      rw [List.cons_append, loop, delete1, if_pos hh]
      exact h1 rest
    · rw [h2 k, SMap.find_erase]
      by_cases hk : k = toKey ty w
      · simp [hk]
      · simp [hk]

/-- What `$DataDelete` does with the names that its argument stands for. -/
theorem delete_names {V : Type} {W : Args.World} (hW : W.sp = Args.seps) {ty : ObjType} (ht : ty ≠ .comments) {db : SMap V} {arg : Text} {l : List Text}
    (hl : Grep.expand Grep.noCase '*' db.keys ((arg.splitOnP (· ∈ W.sp)).map trim) = .ok l) (hw : ∀ w ∈ l, Typed ty w ∧ SMap.find (toKey ty w) db ≠ none)
    (hd : (l.map (toKey ty)).Nodup) : ∃ db', delete W ty db arg = .done db' ∧ ∀ k, SMap.find k db' = if k ∈ l.map (toKey ty) then none else SMap.find k db := by
  obtain ⟨db', h1, h2⟩ := delete_loop ht l db (fun w h => (hw w h).2) hd
  refine ⟨db', ?_, h2⟩
  obtain ⟨r1, r2⟩ := LstCalc.join_read fun w h => (typed_word (hw w h).1).1
  unfold delete ainitLoop
  rw [hl]
  simp only []
  rw [init_names hW r1.1 (by rw [r2]; exact fun w h => (hw w h).1), r2]
  have := h1 []
  rw [List.append_nil] at this
  exact this

theorem trim_word {ty : ObjType} {w : Text} (h : Typed ty w) : trim w = w := h.1

theorem expand_names (env : Grep.Env) (names : List Name) {ty : ObjType} : ∀ ws : List Text, (∀ w ∈ ws, w = [] ∨ Typed ty w) →
    Grep.expand env '*' names ws = .ok (ws.filter (· ≠ []))
  | [], _ => rfl
  | w :: ws, h => by
    rw [Grep.expand, expand_names env names ws fun v hv => h v (by simp [hv])]
    rcases h w (by simp) with rfl | hw
    · rfl
    · have h0 := (name_length hw).2
      have : Grep.expandOne env '*' names w = .ok [w] := by
        cases w with
        | nil => exact absurd rfl h0
        | cons c r =>
          have hb : ∀ x, x = '*' ∨ x = '?' → (c :: r).contains x = false := by
            intro x hx
            cases hc : (c :: r).contains x with
            | false => rfl
            | true =>
              have hm : x ∈ c :: r := by simpa using hc
              have hk : x ∈ toKey ty (c :: r) := by
                unfold toKey
                rw [hw.1]
                split
                · exact List.mem_map.mpr ⟨x, hm, by rcases hx with rfl | rfl <;> decide⟩
                · exact List.mem_map.mpr ⟨x, hm, by rcases hx with rfl | rfl <;> decide⟩
                · exact hm
              have h1 := (checkName_chars hw.2).2.2 x hk
              exfalso
              revert h1
              rcases hx with rfl | rfl <;> cases ty <;> decide
          unfold Grep.expandOne
          simp only []
          rw [if_neg]
          rintro ⟨-, h | h⟩
          · rw [hb _ (.inl rfl)] at h; simp at h
          · rw [hb _ (.inr rfl)] at h; simp at h
      rw [this]
      simp [Res.bind, h0]

theorem filter_trim {sp : List Char} {arg : Text} {ty : ObjType} (h : ∀ w ∈ pieces sp arg, Typed ty w) :
    (∀ w ∈ (arg.splitOnP (· ∈ sp)).map trim, w = [] ∨ Typed ty w) ∧ ((arg.splitOnP (· ∈ sp)).map trim).filter (· ≠ []) = pieces sp arg := by
  unfold pieces at h ⊢
  revert h
  generalize arg.splitOnP (· ∈ sp) = l
  intro h
  induction l with
  | nil => simp
  | cons w l ih =>
    by_cases hw : w = []
    · subst hw
      obtain ⟨h1, h2⟩ := ih (by simpa using h)
      have ht : trim ([] : Text) = [] := rfl
      refine ⟨fun v hv => ?_, ?_⟩
      · rcases List.mem_cons.mp hv with rfl | hv
        · exact .inl ht
        · exact h1 v hv
      · rw [List.map_cons, ht]; simpa using h2
    · have hty := h w (by simp [hw])
      obtain ⟨h1, h2⟩ := ih (fun v hv => h v (by
        rw [List.filter_cons_of_pos (by simpa using hw)]
        exact List.mem_cons_of_mem _ hv))
      refine ⟨fun v hv => ?_, ?_⟩
      · rcases List.mem_cons.mp hv with rfl | hv
        · rw [hty.1]; exact .inr hty
        · exact h1 v hv
      · rw [List.map_cons, hty.1, List.filter_cons_of_pos (by simpa using hw), List.filter_cons_of_pos (by simpa using hw), h2]

/-- `$DataDelete` with names of objects deletes these and no other. -/
theorem C74_delete {V : Type} {W : Args.World} (hW : W.sp = Args.seps) {ty : ObjType} (ht : ty ≠ .comments) {db : SMap V} {arg : Text}
    {names : List Text} (hp : pieces Args.seps arg = names) (hn : ∀ w ∈ names, Typed ty w ∧ SMap.find (toKey ty w) db ≠ none) (hd : (names.map (toKey ty)).Nodup) :
    ∃ db', delete W ty db arg = .done db' ∧ ∀ k, SMap.find k db' = if k ∈ names.map (toKey ty) then none else SMap.find k db := by
  subst hp
  obtain ⟨h1, h2⟩ := filter_trim (sp := Args.seps) (arg := arg) fun w hw => (hn w hw).1
  exact delete_names hW ht (by rw [hW, expand_names _ _ _ h1, h2]) hn hd

/-- At a name that does not exist `$DataDelete` fails: the objects in front of it are deleted, those behind it are kept. -/
theorem C74_delete_unknown {V : Type} {W : Args.World} (hW : W.sp = Args.seps) {ty : ObjType} (ht : ty ≠ .comments) {db : SMap V} {arg : Text}
    {before behind : List Text} {w : Text} (hp : pieces Args.seps arg = before ++ w :: behind) (ha : ∀ v ∈ before ++ w :: behind, Typed ty v)
    (hn : ∀ v ∈ before, SMap.find (toKey ty v) db ≠ none) (hd : (before.map (toKey ty)).Nodup) (he : SMap.find (toKey ty w) db = none ∨ toKey ty w ∈ before.map (toKey ty)) :
    ∃ db', delete W ty db arg = .failed db' ∧ ∀ k, SMap.find k db' = if k ∈ before.map (toKey ty) then none else SMap.find k db := by
  obtain ⟨h1, h2⟩ := filter_trim (sp := Args.seps) (arg := arg) (by rw [hp]; exact ha)
  obtain ⟨db', h3, h4⟩ := delete_loop ht before db hn hd
  refine ⟨db', ?_, h4⟩
  obtain ⟨r1, r2⟩ := LstCalc.join_read (ws := before ++ w :: behind) fun w h => (typed_word (ha w h)).1
  unfold delete ainitLoop
  rw [hW, expand_names _ _ _ h1, h2, hp]
  simp only []
  rw [init_names hW r1.1 (by rw [r2]; exact ha), r2]
  simp only []
  rw [h3, loop]
  have hh : has ty db' w = false := by
    rw [has_eq (ha w (by simp)) (clear_of ht _ _), SMap.has_false_iff, h4]
    split
    · rfl
    · rename_i hm
      exact he.resolve_right hm
  simp [delete1, hh]

/-- The names of a workspace. -/
def Named {V : Type} (ty : ObjType) (db : SMap V) : Prop := (∀ k ∈ db.keys, checkName ty k = true) ∧ db.keys.Nodup

theorem named_typed {ty : ObjType} {k : Text} (h : checkName ty k = true) : Typed ty k ∧ toKey ty k = k :=
  ⟨⟨trim_eq_self fun c hc => (nameTailOk_facts ((checkName_chars h).2.2 c hc)).1, by rw [toKey_of_checkName h]; exact h⟩, toKey_of_checkName h⟩

/-- `$DataDelete` with a pattern deletes the objects whose names fit and no other. -/
theorem C74_delete_pattern_partial {V : Type} {W : Args.World} (hW : W.sp = Args.seps) {ty : ObjType} (ht : ty ≠ .comments) {db : SMap V} (hdb : Named ty db) {p : Text}
    (h1 : Grep.Simple p) (h2 : Grep.NoStarRun p) (h3 : '*' ∈ p ∨ '?' ∈ p) (h4 : ∀ c ∈ p, c ∉ special) :
    ∃ db', delete W ty db p = .done db' ∧ ∀ k, (k ∈ db.keys → Grep.Cut Grep.noCase p k → SMap.find k db' = none) ∧
      (¬ Grep.Cut Grep.noCase p k → SMap.find k db' = SMap.find k db) := by
  obtain ⟨l, e, hs, hl⟩ := Grep.C23_names_partial Grep.noCase p h1 h2 db.keys
  have hne : p ≠ [] := by rintro rfl; simp at h3
  have hsp : p.splitOnP (· ∈ W.sp) = [p] := by
    refine List.splitOnP_eq_singleton fun c hc => ?_
    have := h4 c hc
    rw [hW]
    simp only [decide_eq_false_iff_not]
    intro hm
    refine this ?_
    unfold Args.seps at hm
    simp only [List.mem_cons, List.not_mem_nil, or_false] at hm
    rcases hm with rfl | rfl | rfl | rfl | rfl | rfl <;> decide
  have htr : trim p = p := by
    refine trim_eq_self fun c hc => ?_
    cases hh : isTrimC c
    · rfl
    · exfalso
      rw [isTrimC_iff] at hh
      refine h4 c hc ?_
      have h1 : c.toNat = 32 ∨ c.toNat = 9 ∨ c.toNat = 10 ∨ c.toNat = 11 ∨ c.toNat = 12 ∨ c.toNat = 13 := by omega
      rcases h1 with h1 | h1 | h1 | h1 | h1 | h1
      · rw [SMap.char_eq_of_toNat (b := ' ') h1]; decide
      · rw [SMap.char_eq_of_toNat (b := '\t') h1]; decide
      · rw [SMap.char_eq_of_toNat (b := '\n') h1]; decide
      · rw [SMap.char_eq_of_toNat (b := Char.ofNat 11) h1]; decide
      · rw [SMap.char_eq_of_toNat (b := Char.ofNat 12) h1]; decide
      · rw [SMap.char_eq_of_toNat (b := '\r') h1]; decide
  have hx : Grep.expand Grep.noCase '*' db.keys ((p.splitOnP (· ∈ W.sp)).map trim) = .ok l := by
    rw [hsp, List.map_cons, List.map_nil, htr]
    have : Grep.expandOne Grep.noCase '*' db.keys p = .ok l := by
      cases p with
      | nil => exact absurd rfl hne
      | cons c r =>
        unfold Grep.expandOne
        simp only []
        rw [if_pos, e]
        refine ⟨fun e => h4 c (by simp) (by rw [e]; decide), ?_⟩
        simpa using h3
    rw [Grep.expand, this]
    simp [Grep.expand, Res.bind]
  have hk : ∀ w ∈ l, Typed ty w ∧ toKey ty w = w := fun w hw => named_typed (hdb.1 w (hs.subset hw))
  have hm : l.map (toKey ty) = l := by
    conv => rhs; rw [← List.map_id l]
    exact List.map_congr_left fun w hw => (hk w hw).2
  obtain ⟨db', d1, d2⟩ := delete_names hW ht hx (fun w hw => ⟨(hk w hw).1, by
      rw [(hk w hw).2]
      exact Option.ne_none_iff_exists'.mpr ((SMap.mem_keys_iff w db).mp (hs.subset hw))⟩) (by rw [hm]; exact hdb.2.sublist hs)
  rw [hm] at d2
  refine ⟨db', d1, fun k => ⟨fun hk hc => ?_, fun hc => ?_⟩⟩
  · rw [d2, if_pos ((hl k hk).mpr hc)]
  · by_cases hk : k ∈ db.keys
    · rw [d2, if_neg fun h => hc ((hl k hk).mp h)]
    · rw [d2, if_neg fun h => hk (hs.subset h)]

/-- A name given twice, or matched by two patterns, makes the command fail. -/
theorem C74_delete_twice_counterexample : delete (V := Nat) ⟨Args.seps, fun _ => none, fun _ => none⟩ .variables [("AB".toList, 1), ("C".toList, 2), ("D".toList, 3)]
    "A* AB* D".toList = .failed [("C".toList, 2), ("D".toList, 3)] := by decide +kernel

/-! ## Rename and duplicate -/

/-- `$DataRename` gives the object its new name; no other object changes. -/
theorem C74_rename {V : Type} {W : Args.World} (hW : W.sp = Args.seps) {ty : ObjType} (ht : ty ≠ .comments) (hte : ty ≠ .equations) {db : SMap V} {arg : Text} (hq : '"' ∉ arg)
    {o n : Text} (hp : pieces Args.seps arg = [o, n]) (ho : Typed ty o) (hn : Typed ty n) {v : V} (hv : SMap.find (toKey ty o) db = some v)
    (hf : SMap.find (toKey ty n) db = none) :
    ∃ db', rename W ty db arg = .done db' ∧ SMap.find (toKey ty o) db' = none ∧ SMap.find (toKey ty n) db' = some v ∧
      ∀ k, k ≠ toKey ty o → k ≠ toKey ty n → SMap.find k db' = SMap.find k db := by
  have hne : toKey ty o ≠ toKey ty n := fun e => by rw [e, hf] at hv; simp at hv
  refine ⟨(db.erase (toKey ty o)).insert (toKey ty n) v, ?_, ?_, SMap.find_insert_self _ _ _, fun k h1 h2 => ?_⟩
  · have h1 : has ty db (toKey ty o) = true := by
      rw [has_eq (typed_key ho) (clear_of ht _ _), key_key ho, SMap.has_iff]; exact ⟨v, hv⟩
    have h2 : has ty db (toKey ty n) = false := by
      rw [has_eq (typed_key hn) (clear_of ht _ _), key_key hn, SMap.has_false_iff]; exact hf
    have h3 : db ≠ [] := by rintro rfl; simp at hv
    unfold rename
    rw [if_neg hte, init_names hW hq (ty := ty) (by rw [hp]; simpa using ⟨ho, hn⟩), hp]
    simp [h1, h2, h3, hv, hn.2]
  · rw [SMap.find_insert_ne _ _ hne, SMap.find_erase, if_pos rfl]
  · rw [SMap.find_insert_ne _ _ h2, SMap.find_erase, if_neg h1]

/-- Renaming an object that does not exist, or to a name that exists, leaves the objects as they are, but the error leaves the command. -/
theorem C74_rename_refused {V : Type} {W : Args.World} (hW : W.sp = Args.seps) {ty : ObjType} (ht : ty ≠ .comments) (hte : ty ≠ .equations) {db : SMap V} (h0 : db ≠ []) {arg : Text}
    (hq : '"' ∉ arg) {o n : Text} (hp : pieces Args.seps arg = [o, n]) (ho : Typed ty o) (hn : Typed ty n)
    (h : SMap.find (toKey ty o) db = none ∨ SMap.find (toKey ty n) db ≠ none) : rename W ty db arg = .thrown db := by
  have e1 : has ty db (toKey ty o) = SMap.has (toKey ty o) db := by rw [has_eq (typed_key ho) (clear_of ht _ _), key_key ho]
  have e2 : has ty db (toKey ty n) = SMap.has (toKey ty n) db := by rw [has_eq (typed_key hn) (clear_of ht _ _), key_key hn]
  unfold rename
  rw [if_neg hte, init_names hW hq (ty := ty) (by rw [hp]; simpa using ⟨ho, hn⟩), hp]
  simp only []
  rw [if_neg h0, if_neg (by simp [hn.2]), e1, e2]
  by_cases h1 : SMap.find (toKey ty o) db = none
  · rw [(SMap.has_false_iff _ _).mpr h1]; simp
  · have h2 := h.resolve_left h1
    rw [(SMap.has_iff _ _).mpr (Option.ne_none_iff_exists'.mp h1), (SMap.has_iff _ _).mpr (Option.ne_none_iff_exists'.mp h2)]
    simp

/-- `$DataDuplicate` makes a copy under the new name; no other object changes. -/
theorem C74_duplicate {V : Type} {W : Args.World} (hW : W.sp = Args.seps) {ty : ObjType} (ht : ty ≠ .comments) (hte : ty ≠ .equations) {db : SMap V} {arg : Text} (hq : '"' ∉ arg)
    {o n : Text} (hp : pieces Args.seps arg = [o, n]) (ho : Typed ty o) (hn : Typed ty n) (hne : toKey ty o ≠ toKey ty n) {v : V} (hv : SMap.find (toKey ty o) db = some v) :
    ∃ db', duplicate W ty db arg = .done db' ∧ Only db db' (toKey ty n) v := by
  have hon : o ≠ n := by rintro rfl; exact hne rfl
  have h1 : has ty db o = true := by rw [has_eq ho (clear_of ht _ _), SMap.has_iff]; exact ⟨v, hv⟩
  have key : ∀ db1 : SMap V, (∀ k, k ≠ toKey ty n → SMap.find k db1 = SMap.find k db) →
      (if has ty db1 o = false then Out.failed db1 else match db1.find (toKey ty o) with
        | none => .thrown db1
        | some v => match put ty db1 n v with | some db2 => .done db2 | none => .thrown db1) = .done (db1.insert (toKey ty n) v) := by
    intro db1 h
    have hv1 : SMap.find (toKey ty o) db1 = some v := by rw [h _ hne]; exact hv
    have h2 : has ty db1 o = true := by rw [has_eq ho (clear_of ht _ _), SMap.has_iff]; exact ⟨v, hv1⟩
    rw [h2, hv1]
    simp [put, hn.2]
  unfold duplicate
  rw [if_neg hte, init_names hW hq (ty := ty) (by rw [hp]; simpa using ⟨ho, hn⟩), hp]
  simp only []
  rw [if_neg hon, if_neg (by simp [h1])]
  by_cases h2 : has ty db n = true
  · simp only [h2, if_true]
    have he : ∀ k, k ≠ toKey ty n → SMap.find k (db.erase (toKey ty n)) = SMap.find k db := fun k hk => by rw [SMap.find_erase, if_neg hk]
    refine ⟨_, key _ he, SMap.find_insert_self _ _ _, fun k hk => ?_⟩
    rw [SMap.find_insert_ne _ _ hk, he k hk]
  · simp only [h2, Bool.false_eq_true, if_false]
    exact ⟨_, key db fun _ _ => rfl, only_insert _ _ _⟩

/-- `$DataDuplicateVar a A` deletes the variable. -/
theorem C74_duplicate_counterexample : duplicate (V := Nat) ⟨Args.seps, fun _ => none, fun _ => none⟩ .variables [("A".toList, 1), ("B".toList, 2)] "a A".toList =
    .failed [("B".toList, 2)] := by decide +kernel

/-- `$DataExist` says whether there is an object with the name. -/
theorem C74_exist {V : Type} {ty : ObjType} (ht : ty ≠ .comments) (db : SMap V) (arg : Text) : exist ty db arg = true ↔ ∃ v, SMap.find (toKey ty arg) db = some v := by
  unfold exist has
  cases ty <;> first | exact absurd rfl ht | exact SMap.has_iff _ _

/-! ## Texts -/

theorem nothing_else {w r : Text} {c : Char} : (w ++ c :: r).drop w.length ≠ [] ∧ (w ++ c :: r).drop (w.length + 1) = r := by
  refine ⟨by simp, ?_⟩
  rw [List.drop_append, List.drop_of_length_le (by omega)]
  simp

/-- The parts of an argument that begins with a name. -/
theorem arg_parts {ty : ObjType} {w : Text} (hw : Typed ty w) {c : Char} (hc : c ∈ bseps) (r : Text) :
    left (w ++ c :: r) = w ++ tabs (c :: r) ∧ arg0 (w ++ tabs (c :: r)) = w ∧ (w ++ tabs (c :: r)).drop w.length ≠ [] ∧ (w ++ tabs (c :: r)).drop (w.length + 1) = tabs r := by
  obtain ⟨d, hd, e⟩ := tabs_cons hc r
  refine ⟨left_name hw _, arg0_name hw (.inr ⟨d, hd, tabs r, e⟩), ?_, ?_⟩ <;> rw [e]
  · exact nothing_else.1
  · exact nothing_else.2

/-- `$DataUpdateCmt` and `$DataUpdateLst` give the object the text behind the name and one separator, with blanks for tabs. -/
theorem C74_update_text {W : Args.World} (hW : W.sp = Args.seps) {ty : ObjType} {st : SMap Text} {w r : Text} {c : Char} (hw : Typed ty w) (hcl : Clear ty st w) (hc : c ∈ bseps) :
    ∃ st', updateText W ty st (w ++ c :: r) = .done st' ∧ Only st st' (toKey ty w) (tabs r) := by
  obtain ⟨p1, p2, p3, p4⟩ := arg_parts hw hc r
  obtain ⟨st1, e1, e2, e3⟩ := ensure_new hW hw hcl (fresh := fun _ => .ok (some ([] : Text))) rfl
  have hcl1 : Clear ty st1 (toKey ty w) := by
    intro hty k hk he
    subst hty
    have hkw : toKey .comments w = w := by simp [toKey, ObjType.mode, hw.1]
    rw [hkw] at he ⊢ e3
    by_cases hkk : k = w
    · exact hkk
    · obtain ⟨v, hv⟩ := (SMap.mem_keys_iff _ _).mp hk
      rw [e3 k hkk] at hv
      exact hcl rfl k ((SMap.mem_keys_iff _ _).mpr ⟨v, hv⟩) he
  have hh : has ty st1 (toKey ty w) = true := by
    rw [has_eq (typed_key hw) hcl1, key_key hw, SMap.has_iff]; exact ⟨_, e2⟩
  refine ⟨st1.insert (toKey ty w) (tabs r), ?_, SMap.find_insert_self _ _ _, fun k hk => ?_⟩
  · unfold updateText
    simp only [p1, p2]
    rw [e1]
    simp only []
    rw [if_neg p3, if_neg (by simp [hh]), p4]
    simp [put, key_key hw, hw.2]
  · rw [SMap.find_insert_ne _ _ hk, e3 k hk]

/-- `$DataAppendCmt` and `$DataAppendLst` put the text behind the one that is there. -/
theorem C74_append {ty : ObjType} (sep : Char) {st : SMap Text} {w r : Text} {c : Char} (hw : Typed ty w) (hcl : Clear ty st w) (hc : c ∈ bseps) :
    ∃ st', append ty sep st (w ++ c :: r) = .done st' ∧
      Only st st' (toKey ty w) (match SMap.find (toKey ty w) st with | none => tabs r | some old => old ++ sep :: tabs r) := by
  obtain ⟨p1, p2, p3, p4⟩ := arg_parts hw hc r
  unfold append
  simp only [p1, p2]
  rw [if_neg p3, p4, has_eq hw hcl]
  cases h : SMap.find (toKey ty w) st with
  | none =>
    rw [(SMap.has_false_iff _ _).mpr h]
    exact ⟨_, by simp [put, hw.2], only_insert _ _ _⟩
  | some old =>
    rw [(SMap.has_iff _ _).mpr ⟨old, h⟩]
    exact ⟨_, by simp [put, key_key hw, hw.2], only_insert _ _ _⟩

/-! ## Scalars -/

theorem clear_scl {V : Type} (st : SMap V) (w : Text) : Clear .scalars st w := clear_of (by decide) _ _

/-- `$DataUpdateScl` gives the scalar the value that is written, and the relaxation if there is one; the rest of the scalar and the other scalars do not change. -/
theorem C74_update_scl {F : Type} {rnd : Rat → F} {W : Args.World} (hW : W.sp = Args.seps) {st : SMap (Scl F)} {w r : Text} {c : Char} (hw : Typed .scalars w) (hc : c ∈ bseps)
    {words : List Text} (hr : Expand.words bseps r = words) {s : Scl F} (hs : s = (SMap.find (toKey .scalars w) st).getD ⟨rnd (9 / 10), rnd 1, none⟩)
    {v : Text} {q : Rat} (hv : Number v q) :
    (words = [v] → ∃ st', updateScl rnd W st (w ++ c :: r) = .done st' ∧ Only st st' (toKey .scalars w) ⟨rnd q, s.relax, s.std⟩) ∧
    ∀ x q', words = [v, x] → Number x q' → ∃ st', updateScl rnd W st (w ++ c :: r) = .done st' ∧ Only st st' (toKey .scalars w) ⟨rnd q, rnd q', s.std⟩ := by
  obtain ⟨p1, p2, p3, p4⟩ := arg_parts hw hc r
  obtain ⟨st1, e1, e2, e3⟩ := ensure_new hW hw (clear_scl st w) (fresh := fun _ => .ok (some (⟨rnd (9 / 10), rnd 1, none⟩ : Scl F))) rfl
  rw [← hs] at e2
  have only : ∀ x, Only st (st1.insert (toKey .scalars w) x) (toKey .scalars w) x :=
    fun x => ⟨SMap.find_insert_self _ _ _, fun k hk => by rw [SMap.find_insert_ne _ _ hk, e3 k hk]⟩
  have hvt := words_left hw hc r
  rw [hr] at hvt
  unfold updateScl
  simp only [p1, p2]
  rw [e1]
  simp only []
  rw [if_neg p3, hvt, e2]
  constructor
  · rintro rfl
    refine ⟨_, ?_, only _⟩
    simp only [number_val hv]
  · rintro x q' rfl hx
    refine ⟨_, ?_, only _⟩
    simp only [number_val hv, number_val hx]

/-- Anything but one or two numbers is refused; a new scalar stays. -/
theorem C74_update_scl_refused {F : Type} {rnd : Rat → F} {W : Args.World} (hW : W.sp = Args.seps) {st : SMap (Scl F)} {w r : Text} {c : Char} (hw : Typed .scalars w) (hc : c ∈ bseps)
    (h1 : (Expand.words bseps r).length ≠ 1) (h2 : (Expand.words bseps r).length ≠ 2) :
    ∃ st', updateScl rnd W st (w ++ c :: r) = .failed st' ∧
      Only st st' (toKey .scalars w) ((SMap.find (toKey .scalars w) st).getD ⟨rnd (9 / 10), rnd 1, none⟩) := by
  obtain ⟨p1, p2, p3, p4⟩ := arg_parts hw hc r
  obtain ⟨st1, e1, e2, e3⟩ := ensure_new hW hw (clear_scl st w) (fresh := fun _ => .ok (some (⟨rnd (9 / 10), rnd 1, none⟩ : Scl F))) rfl
  refine ⟨st1, ?_, e2, e3⟩
  unfold updateScl
  simp only [p1, p2]
  rw [e1]
  simp only []
  rw [if_neg p3, words_left hw hc r, e2]
  revert h1 h2
  rcases Expand.words bseps r with _ | ⟨a, _ | ⟨b, _ | ⟨c, l⟩⟩⟩ <;> simp

/-! ## Variables -/

section
variable {F : Type} [Field F] [DecidableEq F]

theorem mode_word {ms : List Text} {m : VarMode} (h : ModeWord ms m) {p : Text} (hp : ∀ c ∈ p.head?, Lec.Written.Digit c) (hp0 : p ≠ []) (vals : List Text) :
    ∃ w1 ws, ms ++ p :: vals = w1 :: ws ∧ (modeOf w1).1 = m ∧ (w1 :: ws).drop ((modeOf w1).2 - 1) = p :: vals := by
  have low : ∀ {c a b : Char}, c ∈ [a, b] → c = a ∨ c = b := by intro c a b h; simpa using h
  cases h with
  | none =>
    refine ⟨p, vals, rfl, ?_⟩
    cases p with
    | nil => exact absurd rfl hp0
    | cons c r =>
      have hc := hp c (by simp)
      have hn : c ≠ 'd' ∧ c ≠ 'D' ∧ c ≠ 'g' ∧ c ≠ 'G' ∧ c ≠ 'l' ∧ c ≠ 'L' := by
        refine ⟨?_, ?_, ?_, ?_, ?_, ?_⟩ <;> rintro rfl <;> revert hc <;> unfold Lec.Written.Digit <;> decide
      simp [modeOf, hn]
  | level hc => rcases low hc with rfl | rfl <;> exact ⟨_, _, rfl, by simp [modeOf], by simp [modeOf]⟩
  | diff hc h1 h2 => rcases low hc with rfl | rfl <;> exact ⟨_, _, rfl, by simp [modeOf, h1, h2], by simp [modeOf]⟩
  | growth hc h1 h2 => rcases low hc with rfl | rfl <;> exact ⟨_, _, rfl, by simp [modeOf, h1, h2], by simp [modeOf]⟩
  | yoyDiff hc hy => rcases low hc with rfl | rfl <;> rcases low hy with rfl | rfl <;> exact ⟨_, _, rfl, by simp [modeOf], by simp [modeOf]⟩
  | yoyGrowth hc hy => rcases low hc with rfl | rfl <;> rcases low hy with rfl | rfl <;> exact ⟨_, _, rfl, by simp [modeOf], by simp [modeOf]⟩

theorem period_head {p : Text} {per : Period} (h : Period.parse p = .ok per) : p ≠ [] ∧ ∀ c ∈ p.head?, Lec.Written.Digit c := by
  unfold Period.parse at h
  cases p with
  | nil => simp at h
  | cons c r =>
    refine ⟨by simp, fun d hd => ?_⟩
    simp only [List.head?_cons, Option.mem_def, Option.some.injEq] at hd
    subst hd
    rw [← digit_iff]
    cases hc : isDigitC c
    · rw [if_neg (by simp), if_pos (by simp [Period.charAt, hc])] at h
      simp at h
    · rfl

theorem entered_take {m : VarMode} {lag t n : Nat} {vs x y : List (Option F)} (hn : x.length ≤ t + n) (h : Entered m lag t (vs.take n) x y) : Entered m lag t vs x y := by
  obtain ⟨h1, h2⟩ := h
  refine ⟨h1, fun j hj => ?_⟩
  rw [h2 j hj]
  have hlen : (vs.take n).length = min n vs.length := List.length_take
  by_cases hc : t ≤ j ∧ j < t + vs.length ∧ lag ≤ j
  · rw [if_pos hc, if_pos (by rw [hlen]; omega)]
    congr 1
    simp only [List.getD_eq_getElem?_getD, List.getElem?_take]
    rw [if_pos (by omega)]
  · rw [if_neg hc, if_neg (by rw [hlen]; omega)]

/-- The values of a variable, or no value at all when there is no such variable. -/
def old (s : Sample) (db : SMap (List (Option F))) (key : Text) : List (Option F) := (SMap.find key db).getD (List.replicate s.nb.toNat none)

theorem lag_eq {q : Int} (hq : 0 < q) (m : VarMode) : m.lag q = (back q.toNat m : Int) ∧ (m = .level ∧ back q.toNat m = 0 ∨ 0 < back q.toNat m ∧ m ≠ .level) := by
  cases m <;> simp [VarMode.lag, back] <;> omega

theorem difference_end {s : Sample} (hs : s.Fair) {per : Period} {t : Int} (ht : per.difference s.start = .ok t) :
    s.stop.difference per = .ok (s.nb - 1 - t) ∧ ∃ q : Int, nbPeriodsPerYear s.start.periodicity = .ok q ∧ 0 < q := by
  have hper : per.periodicity = s.start.periodicity := by
    by_contra hne
    unfold Period.difference at ht
    rw [if_pos hne] at ht
    simp at ht
  obtain ⟨n, ⟨⟨q, hq, h1, h2⟩, -, h3, h4⟩, hn, hnb⟩ := hs
  refine ⟨?_, q, hq, nbPeriodsPerYear_pos hq⟩
  rw [Period.difference_spec (by rw [h3]; exact hq) h3] at h4
  rw [Period.difference_spec (by rw [hper]; exact hq) hper] at ht
  rw [Period.difference_spec (by rw [h3]; exact hq) (h3.trans hper.symm)]
  simp only [Res.ok.injEq] at *
  omega

/-- `$DataUpdateVar` enters the values from the period on, in the mode that is given; a new variable has no other value, and no other variable changes.  Values behind
the end of the sample are left out. -/
theorem C74_update_var {rnd : Rat → F} (hz : rnd 0 = 0) (hnz : ∀ q, rnd q = 0 → q = 0) {W : Args.World} (hW : W.sp = Args.seps) {s : Sample} (hs : s.Fair)
    {db : SMap (List (Option F))} (hdb : ∀ k x, SMap.find k db = some x → (x.length : Int) = s.nb) {w r : Text} {c : Char} (hw : Typed .variables w) (hc : c ∈ bseps)
    {ms vals : List Text} {m : VarMode} {p : Text} (hm : ModeWord ms m) (hr : Expand.words bseps r = ms ++ p :: vals) {per : Period} (hp : Period.parse p = .ok per)
    {t q : Nat} (ht : per.difference s.start = .ok t) (hq : nbPeriodsPerYear s.start.periodicity = .ok q) {vs : List (Option F)} (hvs : List.Forall₂ (Says rnd) vals vs) :
    ∃ db' y, updateVar rnd W (some s) db (w ++ c :: r) = .done db' ∧ Only db db' (toKey .variables w) y ∧ Entered m (back q m) t vs (old s db (toKey .variables w)) y := by
  obtain ⟨p1, p2, p3, p4⟩ := arg_parts hw hc r
  obtain ⟨db1, e1, e2, e3⟩ := ensure_new hW hw (clear_of (by decide) db w) (fresh := freshVar (F := F) (some s)) rfl
  obtain ⟨hd, -⟩ := difference_end hs ht
  have hpos := hs.nb_pos
  have hq0 := nbPeriodsPerYear_pos hq
  obtain ⟨hl1, hl2⟩ := lag_eq hq0 m
  rw [Int.toNat_natCast] at hl1 hl2
  obtain ⟨w1, ws, hw1, hm1, hm2⟩ := mode_word hm (period_head hp).2 (period_head hp).1 vals
  have hlen : (old s db (toKey .variables w)).length = s.nb.toNat := by
    unfold old
    cases h : SMap.find (toKey .variables w) db with
    | none => simp
    | some x => have := hdb _ _ h; simp; omega
  have hvals : (vals.take (s.nb - 1 - t + 1).toNat).map (reading rnd) = vs.take (s.nb - 1 - t + 1).toNat := by
    rw [List.map_take]
    congr 1
    clear hr hw1 hm2
    induction hvs with
    | nil => rfl
    | cons h _ ih => rw [List.map_cons, ih, reading_says hz hnz h]
  obtain ⟨y, y1, y2⟩ := enter_spec (nb := s.nb.toNat) hl2 (vs.take (s.nb - 1 - t + 1).toNat) t _ hlen
  refine ⟨db1.insert (toKey .variables w) y, y, ?_, ⟨SMap.find_insert_self _ _ _, fun k hk => by rw [SMap.find_insert_ne _ _ hk, e3 k hk]⟩, entered_take (by omega) y2⟩
  have hvt := words_left hw hc r
  rw [hr, hw1] at hvt
  unfold updateVar
  simp only [p1, p2]
  rw [e1]
  simp only []
  rw [if_neg p3, hvt]
  simp only []
  rw [hm2]
  simp only [hp, hd, ht, hq]
  rw [if_neg (by omega)]
  have e2' : SMap.find (toKey .variables w) db1 = some (old s db (toKey .variables w)) := e2
  rw [e2', hm1]
  simp only []
  rw [hl1, hvals, Int.toNat_natCast]
  rw [Int.toNat_of_nonneg (by omega)] at y1
  simp only [y1]

/-- Values for a period in front of the sample are refused; a new variable stays, without values. -/
theorem C74_update_before {rnd : Rat → F} {W : Args.World} (hW : W.sp = Args.seps) {s : Sample} (hs : s.Fair) {db : SMap (List (Option F))}
    {w r : Text} {c : Char} (hw : Typed .variables w) (hc : c ∈ bseps) {ms vals : List Text} {m : VarMode} {p : Text} (hm : ModeWord ms m)
    (hr : Expand.words bseps r = ms ++ p :: vals) {per : Period} (hp : Period.parse p = .ok per) {t : Int} (ht : per.difference s.start = .ok t) (hneg : t < 0) :
    ∃ db', updateVar rnd W (some s) db (w ++ c :: r) = .failed db' ∧ Only db db' (toKey .variables w) (old s db (toKey .variables w)) := by
  obtain ⟨p1, p2, p3, p4⟩ := arg_parts hw hc r
  obtain ⟨db1, e1, e2, e3⟩ := ensure_new hW hw (clear_of (by decide) db w) (fresh := freshVar (F := F) (some s)) rfl
  obtain ⟨hd, -⟩ := difference_end hs ht
  obtain ⟨w1, ws, hw1, hm1, hm2⟩ := mode_word hm (period_head hp).2 (period_head hp).1 vals
  refine ⟨db1, ?_, e2, e3⟩
  have hvt := words_left hw hc r
  rw [hr, hw1] at hvt
  unfold updateVar
  simp only [p1, p2]
  rw [e1]
  simp only []
  rw [if_neg p3, hvt]
  simp only []
  rw [hm2]
  simp only [hp, hd, ht]
  rw [if_pos hneg]

/-- Without a sample a new variable is refused and nothing changes. -/
theorem C74_update_no_sample {rnd : Rat → F} {W : Args.World} (hW : W.sp = Args.seps) {db : SMap (List (Option F))} {w r : Text} {c : Char} (hw : Typed .variables w) (hc : c ∈ bseps)
    (hn : SMap.find (toKey .variables w) db = none) : updateVar rnd W none db (w ++ c :: r) = .failed db := by
  obtain ⟨p1, p2, p3, p4⟩ := arg_parts hw hc r
  have hh : has .variables db w = false := by rw [has_eq hw (clear_of (by decide) _ _), SMap.has_false_iff]; exact hn
  unfold updateVar
  simp only [p1, p2]
  have : ensure W .variables (freshVar (F := F) none) db w = .failed db := by
    unfold ensure
    rw [hh]
    simp only [Bool.false_eq_true, if_false, create, ainitLoop, init_one hW hw, loop, create1, hh, freshVar, Option.map_none]
  rw [this]

end

/-! ## Lists of names -/

/-- `$DataList` stores the names that fit the pattern, in their order. -/
theorem C74_list_partial {V : Type} {ty : ObjType} (file : Text → Option Text) (st : Lists.Store) {db : SMap V} (hdb : ∀ k ∈ db.keys, checkName ty k = true) (hl : db.length < 2 ^ 31) {name p : Text}
    (hid : Lists.Ident name) (hn : name.length ≤ 8) (h1 : Grep.Simple p) (h2 : Grep.NoStarRun p) :
    ∃ st' l, list db st name p = .ok ⟨st', true⟩ ∧ Args.init (LstCalc.world file st') ('$' :: name) = .ok (some l) ∧ l.Sublist db.keys ∧
      (∀ n ∈ db.keys, (n ∈ l ↔ Grep.Cut Grep.noCase p n)) ∧
      ∀ k, k ≠ toKey .lists name → (∀ j, k ≠ toKey .lists (name ++ natToChars j)) → SMap.find k st' = SMap.find k st := by
  obtain ⟨l, e, hs, hc⟩ := Grep.C23_names_partial Grep.noCase p h1 h2 db.keys
  have hlen : l.length < 2 ^ 31 := by
    have := hs.length_le
    simp only [SMap.keys, List.length_map] at this
    omega
  obtain ⟨st', s1, s2, s3, -⟩ := Scan.split_read file st hid hn (fun w hw => Compare.name_word (hdb w (hs.subset hw))) hlen
  exact ⟨st', l, by rw [list, e]; exact s1, s2, hs, hc, s3⟩

theorem cut_word (env : Grep.Env) : ∀ {mask : Text}, (∀ c ∈ mask, c ∉ ['\\', '@', '&', '!', '|', '*', '?']) → ∀ s,
    (Grep.Cut env (mask ++ ['*']) s ↔ ∃ u b, s = u ++ b ∧ u.map env.up = mask.map env.up)
  | [], _, s => by
    simp only [List.nil_append, Grep.Cut, if_true]
    constructor
    · rintro ⟨x, y, e, -⟩; exact ⟨[], s, rfl, rfl⟩
    · rintro ⟨u, b, e, -⟩; exact ⟨s, [], by simp, rfl⟩
  | c :: mask, h, s => by
    have hc := h c (by simp)
    simp only [List.mem_cons, List.not_mem_nil, or_false, not_or] at hc
    simp only [List.cons_append, Grep.Cut]
    rw [if_neg hc.2.2.2.2.2.1]
    constructor
    · rintro ⟨d, y, rfl, hd, hy⟩
      obtain ⟨u, b, rfl, hu⟩ := (cut_word env (fun c hc => h c (by simp [hc])) y).mp hy
      exact ⟨d :: u, b, rfl, by simp [hu, hd.resolve_left hc.2.2.2.2.2.2]⟩
    · rintro ⟨u, b, rfl, hu⟩
      cases u with
      | nil => simp at hu
      | cons d u =>
        simp only [List.map_cons, List.cons.injEq] at hu
        exact ⟨d, u ++ b, rfl, .inr hu.1, (cut_word env (fun c hc => h c (by simp [hc])) _).mpr ⟨u, b, rfl, hu.2⟩⟩

theorem star_run {mask : Text} (h : ∀ c ∈ mask, c ≠ '*') : Grep.NoStarRun (mask ++ ['*']) := by
  induction mask with
  | nil => exact ⟨fun _ => .inl rfl, trivial⟩
  | cons c m ih => exact ⟨fun e => absurd e (h c (by simp)), ih fun d hd => h d (by simp [hd])⟩

/-- `$DataSearch` in names stores the names that contain a word of at most 76 characters. -/
theorem C74_search_partial {V : Type} {ty : ObjType} (env : Grep.Env) (file : Text → Option Text) (st : Lists.Store) {db : SMap V} (hdb : ∀ k ∈ db.keys, checkName ty k = true)
    (hl : db.length < 2 ^ 31) {name mask : Text} (hid : Lists.Ident name) (hn : name.length ≤ 8) (h1 : ∀ c ∈ mask, c ∉ ['\\', '@', '&', '!', '|', '*', '?']) (h0 : mask ≠ [])
    (hm : mask.length ≤ 76) :
    ∃ st' l, search env db st mask name = .ok ⟨st', true⟩ ∧ Args.init (LstCalc.world file st') ('$' :: name) = .ok (some l) ∧ l.Sublist db.keys ∧
      (∀ n ∈ db.keys, (n ∈ l ↔ ∃ a u b, n = a ++ (u ++ b) ∧ u.map env.up = mask.map env.up)) ∧
      ∀ k, k ≠ toKey .lists name → (∀ j, k ≠ toKey .lists (name ++ natToChars j)) → SMap.find k st' = SMap.find k st := by
  have hs : Grep.Simple (('*' :: mask.take 76) ++ ['*']) := by
    intro c hc
    rw [List.take_of_length_le hm] at hc
    simp only [List.cons_append, List.mem_cons, List.mem_append, List.not_mem_nil, or_false] at hc
    rcases hc with rfl | hc | rfl
    · decide
    · have := h1 c hc; simp only [List.mem_cons, List.not_mem_nil, or_false, not_or] at this ⊢; tauto
    · decide
  have hr : Grep.NoStarRun (('*' :: mask.take 76) ++ ['*']) := by
    rw [List.take_of_length_le hm]
    refine ⟨fun _ => .inr ?_, star_run fun c hc e => h1 c hc (by simp [e])⟩
    obtain ⟨d, hd⟩ := List.exists_mem_of_ne_nil _ h0
    exact ⟨d, by simp [hd], fun e => h1 d hd (by simp [e])⟩
  obtain ⟨l, e, hs, hc⟩ := Grep.C23_names_partial env _ hs hr db.keys
  have hlen : l.length < 2 ^ 31 := by
    have := hs.length_le
    simp only [SMap.keys, List.length_map] at this
    omega
  obtain ⟨st', s1, s2, s3, -⟩ := Scan.split_read file st hid hn (fun w hw => Compare.name_word (hdb w (hs.subset hw))) hlen
  refine ⟨st', l, by rw [search, e]; exact s1, s2, hs, fun n hn => (hc n hn).trans ?_, s3⟩
  rw [List.take_of_length_le hm]
  simp only [List.cons_append, Grep.Cut, if_true]
  constructor
  · rintro ⟨a, y, rfl, hy⟩
    obtain ⟨u, b, rfl, hu⟩ := (cut_word env h1 y).mp hy
    exact ⟨a, u, b, rfl, hu⟩
  · rintro ⟨a, u, b, rfl, hu⟩
    exact ⟨a, _, rfl, (cut_word env h1 _).mpr ⟨u, b, rfl, hu⟩⟩

/-! ## Where the commands do something else -/

abbrev plain : Args.World := ⟨Args.seps, fun _ => none, fun _ => none⟩
abbrev years : Sample := ⟨⟨2000, 1, 'Y'⟩, ⟨2003, 1, 'Y'⟩, 4⟩
abbrev Vars := SMap (List (Option Rat))

/-- A period that cannot be read: the new variable stays and the error leaves the command. -/
theorem C74_bad_period_counterexample : updateVar (F := Rat) id plain (some years) [] "A 2000X1 5".toList = .thrown [("A".toList, [none, none, none, none])] := by decide +kernel

/-- A mode without period: the text of the period is a null pointer. -/
theorem C74_no_period_undefined : updateVar (F := Rat) id plain (some years) [] "A D".toList = .ub := by decide +kernel

/-- A name with nothing behind it: the text is read behind its end. -/
theorem C74_nothing_undefined : updateText plain .lists [] "A".toList = .ub ∧ append .lists ',' [("A".toList, "B".toList)] "A".toList = .ub ∧
    updateVar (F := Rat) id plain (some years) [] "A".toList = .ub := by decide +kernel

/-- The first 20 characters of a long name are taken for the name, the next one is lost and the others are part of the value. -/
theorem C74_long_name_counterexample : updateText plain .lists [] "ABCDEFGHIJKLMNOPQRSTUVWX Y".toList = .done [("ABCDEFGHIJKLMNOPQRST".toList, "VWX Y".toList)] := by decide +kernel

/-- A word that begins with a sign is the value 0, not a missing value. -/
theorem C74_sign_counterexample : updateVar (F := Rat) id plain (some years) [] "A 2000Y1 -x NA".toList = .done [("A".toList, [some 0, none, none, none])] := by decide +kernel

/-- The equations with the longest names cannot be made: the default text of the equation does not fit. -/
theorem C74_long_equation_undefined {V : Type} (W : Args.World) (hW : W.sp = Args.seps) (eqn : Text → Text → Res (Option V)) {w : Text} (hw : Typed .equations w) (hl : 19 ≤ w.length) :
    create W .equations (freshEq eqn) ([] : SMap V) w = .ub := by
  unfold create ainitLoop
  rw [init_one hW hw]
  simp only [loop, create1]
  rw [has_eq hw (clear_of (by decide) _ _), (SMap.has_false_iff _ _).mpr rfl]
  simp only [freshEq]
  rw [if_neg (by simp), if_pos (by omega)]

/-- A name that is no name: the error leaves the command. -/
theorem C74_bad_name_counterexample : create (V := Nat) plain .variables (fun _ => .ok (some 0)) [] "A 1B C".toList = .thrown [("A".toList, 0)] := by decide +kernel

/-! ## The hypotheses are met -/

theorem ab : pieces Args.seps "a;B".toList = ["a".toList, "B".toList] := by decide +kernel

example : ∃ db', create plain .variables (fun w => .ok (some w.length)) [("C".toList, 3)] "a;B".toList = .done db' ∧
    (∀ w ∈ ["a".toList, "B".toList], SMap.find (toKey .variables w) db' = some w.length) ∧
    ∀ k, k ∉ ["a".toList, "B".toList].map (toKey .variables) → SMap.find k db' = SMap.find k [("C".toList, 3)] :=
  C74_create rfl (by decide) (by decide) ab (by simp only [Typed]; decide +kernel) (by decide +kernel)

example : ∃ db', create plain .variables (fun w => .ok (some w.length)) [("B".toList, 3)] "a;B".toList = .failed db' ∧
    (∀ w ∈ ["a".toList], SMap.find (toKey .variables w) db' = some w.length) ∧
    ∀ k, k ∉ ["a".toList].map (toKey .variables) → SMap.find k db' = SMap.find k [("B".toList, 3)] :=
  C74_create_exists rfl (by decide) (by decide) (before := ["a".toList]) (behind := []) ab (by decide +kernel) (by simp only [Typed]; decide +kernel) (by decide +kernel)
    (by decide +kernel)

example : ∃ db', create plain .variables (freshVar (F := Rat) (some years)) [("C".toList, [])] "a;B".toList = .done db' ∧
    (∀ w ∈ ["a".toList, "B".toList], ∃ x, SMap.find (toKey .variables w) db' = some x ∧ x.length = 4 ∧ ∀ v ∈ x, v = none) ∧
    ∀ k, k ∉ ["a".toList, "B".toList].map (toKey .variables) → SMap.find k db' = SMap.find k [("C".toList, [])] :=
  C74_create_variables (s := years) rfl (by decide) ab (by simp only [Typed]; decide +kernel) (by decide +kernel)

example : ∃ db', delete plain .variables [("A".toList, 1), ("B".toList, 2), ("C".toList, 3)] "a;B".toList = .done db' ∧
    ∀ k, SMap.find k db' = if k ∈ ["a".toList, "B".toList].map (toKey .variables) then none else SMap.find k [("A".toList, 1), ("B".toList, 2), ("C".toList, 3)] :=
  C74_delete rfl (by decide) ab (by simp only [Typed]; decide +kernel) (by decide +kernel)

example : ∃ db', delete plain .variables [("A".toList, 1), ("C".toList, 3)] "a;B".toList = .failed db' ∧
    ∀ k, SMap.find k db' = if k ∈ ["a".toList].map (toKey .variables) then none else SMap.find k [("A".toList, 1), ("C".toList, 3)] :=
  C74_delete_unknown rfl (by decide) (before := ["a".toList]) (behind := []) ab (by simp only [Typed]; decide +kernel) (by decide +kernel) (by decide +kernel) (by decide +kernel)

example : ∃ db', delete plain .variables [("A1".toList, 1), ("A2".toList, 2), ("B1".toList, 3)] "a*".toList = .done db' ∧
    ∀ k, (k ∈ SMap.keys [("A1".toList, 1), ("A2".toList, 2), ("B1".toList, 3)] → Grep.Cut Grep.noCase "a*".toList k → SMap.find k db' = none) ∧
      (¬ Grep.Cut Grep.noCase "a*".toList k → SMap.find k db' = SMap.find k [("A1".toList, 1), ("A2".toList, 2), ("B1".toList, 3)]) :=
  C74_delete_pattern_partial rfl (by decide) (by unfold Named; decide +kernel) (by unfold Grep.Simple; decide) ⟨by decide, fun _ => .inl rfl, trivial⟩ (by decide) (by decide +kernel)

example : ∃ db', rename plain .variables [("A".toList, 1), ("C".toList, 3)] "a;B".toList = .done db' ∧ SMap.find "A".toList db' = none ∧ SMap.find "B".toList db' = some 1 ∧
    ∀ k, k ≠ "A".toList → k ≠ "B".toList → SMap.find k db' = SMap.find k [("A".toList, 1), ("C".toList, 3)] :=
  C74_rename rfl (by decide) (by decide) (by decide) ab (by unfold Typed; decide +kernel) (by unfold Typed; decide +kernel) (by decide +kernel) (by decide +kernel)

example : rename plain .variables [("A".toList, 1), ("B".toList, 3)] "a;B".toList = .thrown [("A".toList, 1), ("B".toList, 3)] :=
  C74_rename_refused rfl (by decide) (by decide) (by decide) (by decide) ab (by unfold Typed; decide +kernel) (by unfold Typed; decide +kernel) (.inr (by decide +kernel))

example : ∃ db', duplicate plain .variables [("A".toList, 1), ("B".toList, 3)] "a;B".toList = .done db' ∧ Only [("A".toList, 1), ("B".toList, 3)] db' "B".toList 1 :=
  C74_duplicate rfl (by decide) (by decide) (by decide) ab (by unfold Typed; decide +kernel) (by unfold Typed; decide +kernel) (by decide +kernel) (by decide +kernel)

example : exist .variables [("A".toList, 1)] " a ".toList = true := (C74_exist (by decide) _ _).mpr ⟨1, by decide +kernel⟩

example : ∃ st', updateText plain .comments [("aB".toList, "x".toList)] "C  the\ttext".toList = .done st' ∧
    Only [("aB".toList, "x".toList)] st' "C".toList " the text".toList :=
  C74_update_text (w := "C".toList) (r := " the\ttext".toList) rfl (by unfold Typed; decide +kernel) (by unfold Clear; decide +kernel) (by decide)

example : ∃ st', append .lists ',' [("AB".toList, "x".toList)] "ab y;z".toList = .done st' ∧ Only [("AB".toList, "x".toList)] st' "AB".toList "x,y;z".toList :=
  C74_append (w := "ab".toList) (r := "y;z".toList) ',' (by unfold Typed; decide +kernel) (by unfold Clear; decide +kernel) (by decide)

theorem half : Number ".5".toList (1 / 2) := by
  have h := Number.plain (Unsigned.point (i := []) (f := ['5']) (x := []) (e := 0) (by unfold Lec.Written.Digits; decide) (by unfold Lec.Written.Digits Lec.Written.Digit; decide) (.inr (by simp)) .none)
  have e : Lec.Written.number [] ['5'] 0 = 1 / 2 := by decide +kernel
  rw [e] at h
  exact h

theorem minus : Number "-2e1".toList (-20) := by
  have h := Number.minus (Unsigned.whole (i := ['2']) (x := ['e', '1']) (e := 1) (by unfold Lec.Written.Digits Lec.Written.Digit; decide) (by simp)
    (Lec.Written.Expo.plain (d := ['1']) (.inl rfl) (by decide) (by simp)))
  have e : Lec.Written.number ['2'] [] 1 = 20 := by decide +kernel
  rw [e] at h
  exact h

example : ∃ st', updateScl (F := Rat) id plain [("a".toList, ⟨1, 2, some 3⟩)] "a -2e1 .5".toList = .done st' ∧ Only [("a".toList, ⟨1, 2, some 3⟩)] st' "a".toList ⟨-20, 1 / 2, some 3⟩ :=
  (C74_update_scl (w := "a".toList) (r := "-2e1 .5".toList) (c := ' ') rfl (by unfold Typed; decide +kernel) (by decide) (words := ["-2e1".toList, ".5".toList]) (by decide +kernel)
    (s := ⟨1, 2, some 3⟩) (by decide +kernel) minus).2 _ _ rfl half

example : ∃ st', updateScl (F := Rat) id plain [("a".toList, ⟨1, 2, some 3⟩)] "b 1 2 3".toList = .failed st' ∧ Only [("a".toList, ⟨1, 2, some 3⟩)] st' "b".toList ⟨9 / 10, 1, none⟩ :=
  C74_update_scl_refused (w := "b".toList) (r := "1 2 3".toList) rfl (by unfold Typed; decide +kernel) (by decide) (by decide +kernel) (by decide +kernel)

theorem years_fair : years.Fair := ⟨3, ⟨⟨1, rfl, by decide, by decide⟩, ⟨1, rfl, by decide, by decide⟩, rfl, rfl⟩, by decide, rfl⟩

/-- `$DataUpdateVar a D 2001Y1 .5 NA -2e1` on `1 2 3 4`. -/
example : ∃ db' y, updateVar (F := Rat) id plain (some years) [("A".toList, [some 1, some 2, some 3, some 4])] "a D 2001Y1 .5 NA -2e1".toList = .done db' ∧
    Only [("A".toList, [some 1, some 2, some 3, some 4])] db' "A".toList y ∧ Entered .diff 1 1 [some (1 / 2), none, some (-20)] [some 1, some 2, some 3, some 4] y :=
  C74_update_var (rnd := id) rfl (fun _ h => h) (w := "a".toList) (r := "D 2001Y1 .5 NA -2e1".toList) rfl years_fair
    (by intro k x h; rw [SMap.find] at h; split at h <;> simp_all [SMap.find]; subst h; rfl) (by unfold Typed; decide +kernel) (by decide)
    (ms := ["D".toList]) (vals := [".5".toList, "NA".toList, "-2e1".toList]) (p := "2001Y1".toList) (.diff (by decide) (by decide) (by decide)) (by decide +kernel)
    (per := ⟨2001, 1, 'Y'⟩) (by decide +kernel) (t := 1) (q := 1) (by decide +kernel) (by decide +kernel)
    (.cons (.number half) (.cons (.absent ⟨'N', ['A'], rfl, by unfold Lec.Written.Digit; decide, by decide⟩) (.cons (.number minus) .nil)))

example : ∃ db', updateVar (F := Rat) id plain (some years) [] "a 1999Y1 .5".toList = .failed db' ∧ Only [] db' "A".toList [none, none, none, none] :=
  C74_update_before (w := "a".toList) (r := "1999Y1 .5".toList) rfl years_fair (by unfold Typed; decide +kernel) (by decide) (ms := []) (vals := [".5".toList]) (p := "1999Y1".toList)
    .none (by decide +kernel) (per := ⟨1999, 1, 'Y'⟩) (by decide +kernel) (t := -1) (by decide +kernel) (by decide)

example : updateVar (F := Rat) id plain none [] "a 1999Y1 .5".toList = .failed [] :=
  C74_update_no_sample (w := "a".toList) (r := "1999Y1 .5".toList) rfl (by unfold Typed; decide +kernel) (by decide) rfl

example : ∃ st' l, list [("A1".toList, 1), ("A2".toList, 2), ("B1".toList, 3)] [] "L".toList "a*".toList = .ok ⟨st', true⟩ ∧
    Args.init (LstCalc.world (fun _ => none) st') "$L".toList = .ok (some l) ∧ l.Sublist (SMap.keys [("A1".toList, 1), ("A2".toList, 2), ("B1".toList, 3)]) ∧
    (∀ n ∈ SMap.keys [("A1".toList, 1), ("A2".toList, 2), ("B1".toList, 3)], (n ∈ l ↔ Grep.Cut Grep.noCase "a*".toList n)) ∧
    ∀ k, k ≠ toKey .lists "L".toList → (∀ j, k ≠ toKey .lists ("L".toList ++ natToChars j)) → SMap.find k st' = none :=
  C74_list_partial (ty := .variables) (fun _ => none) [] (by decide +kernel) (by decide) (name := "L".toList) (by unfold Lists.Ident; decide +kernel) (by decide) (by unfold Grep.Simple; decide)
    ⟨by decide, fun _ => .inl rfl, trivial⟩

example : ∃ st' l, search Grep.noCase [("A1".toList, 1), ("A2".toList, 2), ("B1".toList, 3)] [] "1".toList "L".toList = .ok ⟨st', true⟩ ∧
    Args.init (LstCalc.world (fun _ => none) st') "$L".toList = .ok (some l) ∧ l.Sublist (SMap.keys [("A1".toList, 1), ("A2".toList, 2), ("B1".toList, 3)]) ∧
    (∀ n ∈ SMap.keys [("A1".toList, 1), ("A2".toList, 2), ("B1".toList, 3)], (n ∈ l ↔ ∃ a u b, n = a ++ (u ++ b) ∧ u.map Grep.noCase.up = "1".toList.map Grep.noCase.up)) ∧
    ∀ k, k ≠ toKey .lists "L".toList → (∀ j, k ≠ toKey .lists ("L".toList ++ natToChars j)) → SMap.find k st' = none :=
  C74_search_partial (ty := .variables) Grep.noCase (fun _ => none) [] (by decide +kernel) (by decide) (name := "L".toList) (by unfold Lists.Ident; decide +kernel) (by decide) (by decide) (by decide) (by decide)

example : create plain .equations (freshEq fun _ _ => .ok (some 1)) ([] : SMap Nat) "ABCDEFGHIJKLMNOPQRS".toList = .ub :=
  C74_long_equation_undefined plain rfl _ (by unfold Typed; decide +kernel) (by decide)

end Iode.DataCmd
