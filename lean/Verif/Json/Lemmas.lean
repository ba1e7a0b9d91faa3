import Verif.Json.Model
import Mathlib.Data.List.TakeDrop
namespace Grain

/-! ### Strings -/

theorem hexValue_digit : ∀ d : Nat, d < 16 → hexValue (hexDigit d) = some d := by decide

theorem hexValue4_escape (n : Nat) (h : n < 65536) :
    hexValue4 (hexDigit (n / 4096 % 16)) (hexDigit (n / 256 % 16)) (hexDigit (n / 16 % 16)) (hexDigit (n % 16)) = some n := by
  simp only [hexValue4, hexValue_digit _ (Nat.mod_lt _ (by decide : 0 < 16)), Option.some.injEq]
  omega

theorem ofNat_ascii : ∀ n : Nat, n < 127 → (Char.ofNat n).toNat = n := by decide

theorem readUnits_escape (n : Nat) (h : n < 65536) (t : List Char) :
    readUnits (escapeUnit n ++ t) = (readUnits t).map (fun q => (n :: q.1, q.2)) := by
  unfold escapeUnit
  split
  · next e => subst e; rw [List.cons_append, readUnits.eq_def]; simp [unescape]
  split
  · next e => subst e; rw [List.cons_append, readUnits.eq_def]; simp [unescape]
  split
  · next e => subst e; rw [List.cons_append, readUnits.eq_def]; simp [unescape]
  split
  · next e => subst e; rw [List.cons_append, readUnits.eq_def]; simp [unescape]
  split
  · next e => subst e; rw [List.cons_append, readUnits.eq_def]; simp [unescape]
  split
  · next e => subst e; rw [List.cons_append, readUnits.eq_def]; simp [unescape]
  split
  · next e => subst e; rw [List.cons_append, readUnits.eq_def]; simp [unescape]
  split
  · next h1 h2 _ _ _ _ _ h3 =>
    have ht : (Char.ofNat n).toNat = n := ofNat_ascii n (by omega)
    have q1 : Char.ofNat n ≠ '"' := by intro e; rw [e] at ht; exact h1 ht.symm
    have q2 : Char.ofNat n ≠ '\\' := by intro e; rw [e] at ht; exact h2 ht.symm
    rw [List.cons_append, List.nil_append, readUnits.eq_def]
    simp only [q1, q2, if_false, ht]
    rw [if_neg (by omega)]
  · rw [hexEscape, List.cons_append, readUnits.eq_def]
    simp [hexValue4_escape n h]

theorem readUnits_quote (t : List Char) : readUnits ('"' :: t) = some ([], t) := by
  rw [readUnits.eq_def]; simp

theorem readUnits_escapes (us : List Nat) (h : ∀ n ∈ us, n < 65536) (t : List Char) :
    readUnits (us.flatMap escapeUnit ++ '"' :: t) = some (us, t) := by
  induction us with
  | nil => simp [readUnits_quote]
  | cons n us ih =>
    rw [List.flatMap_cons, List.append_assoc, readUnits_escape n (h n List.mem_cons_self),
      ih (fun m hm => h m (List.mem_cons_of_mem _ hm))]
    rfl

theorem charUnits_lt (c : Char) : ∀ n ∈ charUnits c, n < 65536 := by
  intro n hn
  have hc : c.toNat < 0x110000 := by
    rcases c.valid with h | h
    · have : c.toNat < 0xd800 := h
      omega
    · exact h.2
  unfold charUnits at hn
  split at hn
  · simp at hn; omega
  · simp at hn; omega

theorem joinUnits_charUnits (c : Char) (us : List Nat) :
    joinUnits (charUnits c ++ us) = (joinUnits us).map (c :: ·) := by
  unfold charUnits
  split
  · rw [List.cons_append, List.nil_append, joinUnits.eq_def]
    have hv : ¬ (0xd800 ≤ c.toNat ∧ c.toNat < 0xe000) := by
      rcases c.valid with h | h
      · have : c.toNat < 0xd800 := h
        omega
      · have : 0xdfff < c.toNat := h.1
        omega
    simp only
    rw [if_neg (by omega), if_neg (by omega), Char.ofNat_toNat]
  · next hc =>
    have hm : c.toNat < 0x110000 := by
      rcases c.valid with h | h
      · have : c.toNat < 0xd800 := h
        omega
      · exact h.2
    rw [List.cons_append, List.cons_append, List.nil_append, joinUnits.eq_def]
    simp only
    rw [if_pos (by omega), if_pos (by omega)]
    have : 0x10000 + (0xd800 + (c.toNat - 0x10000) / 1024 - 0xd800) * 1024
        + (0xdc00 + (c.toNat - 0x10000) % 1024 - 0xdc00) = c.toNat := by omega
    rw [this, Char.ofNat_toNat]

theorem joinUnits_chars (s : List Char) : joinUnits (s.flatMap charUnits) = some s := by
  induction s with
  | nil => rw [List.flatMap_nil, joinUnits.eq_def]
  | cons c s ih => rw [List.flatMap_cons, joinUnits_charUnits, ih]; rfl

theorem readStr_jsonStr (s t : List Char) : ∃ r, jsonStr s ++ t = '"' :: r ∧ readStr r = some (s, t) := by
  refine ⟨(s.flatMap charUnits).flatMap escapeUnit ++ '"' :: t, by simp [jsonStr], ?_⟩
  have h : ∀ n ∈ s.flatMap charUnits, n < 65536 := by
    intro n hn
    obtain ⟨c, _, hc⟩ := List.mem_flatMap.1 hn
    exact charUnits_lt c n hc
  rw [readStr, readUnits_escapes _ h]
  simp [joinUnits_chars]

/-! ### Numbers -/

/-- A text that does not carry a number on. -/
def Stops (t : List Char) : Prop :=
  ∀ c, t.head? = some c → c.isDigit = false ∧ c ≠ '.' ∧ c ≠ 'e' ∧ c ≠ 'E'

theorem takeWhile_append_stop {p : Char → Bool} {a b : List Char} (ha : ∀ c ∈ a, p c = true)
    (hb : ∀ c, b.head? = some c → p c = false) : (a ++ b).takeWhile p = a ∧ (a ++ b).dropWhile p = b := by
  induction a with
  | nil =>
    cases b with
    | nil => simp
    | cons c b => have := hb c rfl; simp [this]
  | cons c a ih =>
    have := ih (fun d hd => ha d (List.mem_cons_of_mem _ hd))
    simp [ha c List.mem_cons_self, this.1, this.2]

theorem jsonNat_head (n : Nat) (hn : n ≠ 0) : ∃ c r, jsonNat n = c :: r ∧ c ≠ '0' := by
  induction n using Nat.strongRecOn with
  | _ n ih =>
    by_cases h : n < 10
    · refine ⟨n.digitChar, [], Nat.toDigits_of_lt_base h, ?_⟩
      have : ∀ m : Nat, m < 10 → m ≠ 0 → m.digitChar ≠ '0' := by decide
      exact this n h hn
    · obtain ⟨c, r, e, hc⟩ := ih (n / 10) (by omega) (by omega)
      refine ⟨c, r ++ [(n % 10).digitChar], ?_, hc⟩
      rw [jsonNat, Nat.toDigits_of_base_le (by decide) (by omega)]
      rw [jsonNat] at e
      rw [e]; rfl

theorem jsonNat_digit {n : Nat} {c : Char} (h : c ∈ jsonNat n) : c.isDigit = true :=
  Nat.isDigit_of_mem_toDigits (by decide) (by decide) h

theorem readNat_jsonNat (n : Nat) (t : List Char) (ht : Stops t) : readNat (jsonNat n ++ t) = some (n, t) := by
  by_cases hn : n = 0
  · subst hn
    have : jsonNat 0 = ['0'] := Nat.toDigits_zero 10
    rw [this]; simp [readNat]
  · obtain ⟨c, r, e, hc⟩ := jsonNat_head n hn
    have hd : c.isDigit = true := jsonNat_digit (n := n) (by rw [e]; exact List.mem_cons_self)
    have hr : ∀ d ∈ r, d.isDigit = true := fun d h => jsonNat_digit (n := n) (by rw [e]; exact List.mem_cons_of_mem _ h)
    obtain ⟨h1, h2⟩ := takeWhile_append_stop hr (fun d h => (ht d h).1)
    rw [e, List.cons_append, readNat]
    simp only [hc, hd, if_false, if_true, h1, h2]
    rw [← e, jsonNat, Nat.ofDigitChars_ten_toDigits]

theorem readSigned_jsonInt (n : Int) (t : List Char) (ht : Stops t) : readSigned (jsonInt n ++ t) = some (n, t) := by
  unfold jsonInt
  split
  · rw [List.cons_append, readSigned, readNat_jsonNat _ _ ht]
    simp; omega
  · have hne : ∀ r, jsonNat n.natAbs ++ t ≠ '-' :: r := by
      intro r e
      have hx : jsonNat n.natAbs ≠ [] := Nat.toDigits_ne_nil
      obtain ⟨c, q, hq⟩ := List.exists_cons_of_ne_nil hx
      have hd : c.isDigit = true := jsonNat_digit (n := n.natAbs) (by rw [hq]; exact List.mem_cons_self)
      rw [hq, List.cons_append] at e
      injection e with e _
      rw [e] at hd
      exact absurd hd (by decide)
    rw [readSigned.eq_def]
    split
    · next e => exact absurd e (hne _)
    · rw [readNat_jsonNat _ _ ht]
      simp; omega

theorem readInt_jsonInt (n : Int) (t : List Char) (ht : Stops t) : readInt (jsonInt n ++ t) = some (n, t) := by
  rw [readInt, readSigned_jsonInt n t ht]
  simp only
  rw [if_neg]
  rintro (h | h | h)
  · exact (ht _ h).2.1 rfl
  · exact (ht _ h).2.2.1 rfl
  · exact (ht _ h).2.2.2 rfl

theorem jsonInt_head (n : Int) : ∃ c r, jsonInt n = c :: r ∧ (c = '-' ∨ c.isDigit = true) := by
  unfold jsonInt
  split
  · exact ⟨_, _, rfl, .inl rfl⟩
  · obtain ⟨c, q, hq⟩ := List.exists_cons_of_ne_nil (Nat.toDigits_ne_nil (n := n.natAbs) (b := 10))
    exact ⟨c, q, hq, .inr (jsonNat_digit (n := n.natAbs) (by rw [jsonNat, hq]; exact List.mem_cons_self))⟩

/-! ### Spaces -/

theorem skipSpace_newline (i : Nat) (t : List Char) : skipSpace (newline i ++ t) = skipSpace t := by
  induction i with
  | zero => simp [newline, skipSpace, isJsonSpace]
  | succ i ih =>
    simp only [newline, skipSpace, List.replicate_succ, List.cons_append, List.dropWhile_cons] at ih ⊢
    simpa [isJsonSpace] using ih

theorem skipSpace_cons {c : Char} (h : isJsonSpace c = false) (t : List Char) : skipSpace (c :: t) = c :: t := by
  simp [skipSpace, h]

theorem Json.dump_head (i : Nat) (v : Json) : ∃ c r, v.dump i = c :: r ∧ isJsonSpace c = false ∧ c ≠ ']' := by
  cases v with
  | null => exact ⟨_, _, rfl, by decide, by decide⟩
  | bool b => cases b <;> exact ⟨_, _, rfl, by decide, by decide⟩
  | int n =>
    obtain ⟨c, r, e, hc⟩ := jsonInt_head n
    refine ⟨c, r, by rw [Json.dump, e], ?_, ?_⟩
    · rcases hc with hc | hc
      · subst hc; decide
      · simp only [isJsonSpace, Bool.or_eq_false_iff, decide_eq_false_iff_not]
        refine ⟨⟨⟨?_, ?_⟩, ?_⟩, ?_⟩ <;> (rintro rfl; exact absurd hc (by decide))
    · rcases hc with hc | hc
      · subst hc; decide
      · rintro rfl; exact absurd hc (by decide)
  | str s => exact ⟨_, _, rfl, by decide, by decide⟩
  | arr xs => cases xs <;> exact ⟨_, _, rfl, by decide, by decide⟩
  | obj ms => cases ms <;> exact ⟨_, _, rfl, by decide, by decide⟩

theorem skipSpace_dump (i : Nat) (v : Json) (t : List Char) : skipSpace (v.dump i ++ t) = v.dump i ++ t := by
  obtain ⟨c, r, e, hc, _⟩ := v.dump_head i
  rw [e, List.cons_append, skipSpace_cons hc]

/-! ### Reading back what was written -/

mutual
/-- Depth of calls needed to read a value. -/
def Json.need : Json → Nat
  | .arr xs => 1 + xs.need
  | .obj ms => 1 + ms.need
  | _ => 1
/-- `need` of items. -/
def JItems.need : JItems → Nat
  | .nil => 0
  | .cons x xs => 1 + x.need + xs.need
/-- `need` of members. -/
def JMembers.need : JMembers → Nat
  | .nil => 0
  | .cons _ x ms => 1 + x.need + ms.need
end

theorem stops_newline (i : Nat) (t : List Char) : Stops (newline i ++ t) := by
  intro c h; simp [newline] at h; subst h; decide

theorem stops_comma (t : List Char) : Stops (',' :: t) := by
  intro c h; simp at h; subst h; decide

theorem stops_nil : Stops [] := by intro c h; simp at h

theorem stops_items (i j : Nat) (xs : JItems) (t : List Char) : Stops (xs.dumpRest i ++ (newline j ++ t)) := by
  cases xs with
  | nil => rw [JItems.dumpRest, List.nil_append]; exact stops_newline _ _
  | cons x xs => rw [JItems.dumpRest, List.cons_append]; exact stops_comma _

theorem stops_members (i j : Nat) (ms : JMembers) (t : List Char) : Stops (ms.dumpRest i ++ (newline j ++ t)) := by
  cases ms with
  | nil => rw [JMembers.dumpRest, List.nil_append]; exact stops_newline _ _
  | cons k x ms => rw [JMembers.dumpRest, List.cons_append]; exact stops_comma _

theorem readInt_ne {n : Int} {c : Char} {r : List Char} (e : jsonInt n = c :: r) :
    c ≠ '"' ∧ c ≠ '{' ∧ c ≠ '[' ∧ c ≠ 'n' ∧ c ≠ 't' ∧ c ≠ 'f' := by
  obtain ⟨c', r', e', hc⟩ := jsonInt_head n
  rw [e] at e'
  injection e' with e1 _
  subst e1
  rcases hc with hc | hc
  · subst hc; decide
  · refine ⟨?_, ?_, ?_, ?_, ?_, ?_⟩ <;> (rintro rfl; exact absurd hc (by decide))

mutual
theorem readVal_dump : ∀ (v : Json) (F i : Nat) (t : List Char), v.need ≤ F → Stops t →
    readVal F (v.dump i ++ t) = some (v, t)
  | .null, F, i, t, hF, _ => by
      obtain ⟨F, rfl⟩ : ∃ k, F = k + 1 := ⟨F - 1, by simp [Json.need] at hF; omega⟩
      simp [Json.dump, readVal, readWord]
  | .bool true, F, i, t, hF, _ => by
      obtain ⟨F, rfl⟩ : ∃ k, F = k + 1 := ⟨F - 1, by simp [Json.need] at hF; omega⟩
      simp [Json.dump, readVal, readWord]
  | .bool false, F, i, t, hF, _ => by
      obtain ⟨F, rfl⟩ : ∃ k, F = k + 1 := ⟨F - 1, by simp [Json.need] at hF; omega⟩
      simp [Json.dump, readVal, readWord]
  | .int n, F, i, t, hF, ht => by
      obtain ⟨F, rfl⟩ : ∃ k, F = k + 1 := ⟨F - 1, by simp [Json.need] at hF; omega⟩
      obtain ⟨c, r, e, _⟩ := jsonInt_head n
      obtain ⟨h1, h2, h3, h4, h5, h6⟩ := readInt_ne e
      have hr := readInt_jsonInt n t ht
      rw [e, List.cons_append] at hr
      simp only [Json.dump, e, List.cons_append, readVal, h1, h2, h3, h4, h5, h6, if_false, hr, Option.map_some]
  | .str s, F, i, t, hF, _ => by
      obtain ⟨F, rfl⟩ : ∃ k, F = k + 1 := ⟨F - 1, by simp [Json.need] at hF; omega⟩
      obtain ⟨r, e, hr⟩ := readStr_jsonStr s t
      simp only [Json.dump, e, readVal, if_true, hr, Option.map_some]
  | .arr .nil, F, i, t, hF, _ => by
      obtain ⟨F, rfl⟩ : ∃ k, F = k + 1 := ⟨F - 1, by simp [Json.need] at hF; omega⟩
      simp [Json.dump, readVal, skipSpace, isJsonSpace]
  | .arr (.cons x xs), F, i, t, hF, _ => by
      obtain ⟨F, rfl⟩ : ∃ k, F = k + 1 := ⟨F - 1, by simp [Json.need] at hF; omega⟩
      have hi := readItems_dump x xs F (i + 4) i t (by simp [Json.need, JItems.need] at hF ⊢; omega)
      obtain ⟨c, r, e, hc, hb⟩ := x.dump_head (i + 4)
      simp only [Json.dump, List.cons_append, List.append_assoc, readVal]
      rw [if_neg (by decide), if_neg (by decide), if_pos trivial, skipSpace_newline, skipSpace_dump]
      rw [e, List.cons_append] at hi ⊢
      simp only [hb, if_false]
      simp only [List.nil_append] at hi ⊢
      rw [hi]; rfl
  | .obj .nil, F, i, t, hF, _ => by
      obtain ⟨F, rfl⟩ : ∃ k, F = k + 1 := ⟨F - 1, by simp [Json.need] at hF; omega⟩
      simp [Json.dump, readVal, skipSpace, isJsonSpace]
  | .obj (.cons k x ms), F, i, t, hF, _ => by
      obtain ⟨F, rfl⟩ : ∃ k, F = k + 1 := ⟨F - 1, by simp [Json.need] at hF; omega⟩
      obtain ⟨r, e, hi⟩ := readMembers_dump k x ms F (i + 4) i t (by simp [Json.need, JMembers.need] at hF ⊢; omega)
      simp only [Json.dump, List.cons_append, List.append_assoc, readVal]
      rw [if_neg (by decide), if_pos trivial, skipSpace_newline]
      simp only [List.nil_append, List.cons_append] at e ⊢
      rw [e, skipSpace_cons (by decide)]
      simp only [if_true]
      rw [if_neg (by decide), hi]; rfl
termination_by v => v.need
decreasing_by all_goals (simp [Json.need, JItems.need, JMembers.need] <;> omega)
theorem readItems_dump : ∀ (x : Json) (xs : JItems) (F i j : Nat) (t : List Char), (JItems.cons x xs).need ≤ F →
    readItems F (x.dump i ++ (xs.dumpRest i ++ (newline j ++ (']' :: t)))) = some (.cons x xs, t)
  | x, .nil, F, i, j, t, hF => by
      obtain ⟨F, rfl⟩ : ∃ k, F = k + 1 := ⟨F - 1, by simp [JItems.need] at hF; omega⟩
      rw [readItems, readVal_dump x F i _ (by simp [JItems.need] at hF; omega) (stops_items _ _ _ _)]
      simp only [JItems.dumpRest, List.nil_append]
      rw [skipSpace_newline, skipSpace_cons (by decide)]
      simp
  | x, .cons y ys, F, i, j, t, hF => by
      obtain ⟨F, rfl⟩ : ∃ k, F = k + 1 := ⟨F - 1, by simp [JItems.need] at hF; omega⟩
      rw [readItems, readVal_dump x F i _ (by simp [JItems.need] at hF; omega) (stops_items _ _ _ _)]
      simp only [JItems.dumpRest, List.cons_append, List.append_assoc]
      rw [skipSpace_cons (by decide)]
      simp only
      rw [if_neg (by decide), if_pos trivial, skipSpace_newline, skipSpace_dump,
        readItems_dump y ys F i j t (by simp [JItems.need] at hF ⊢; omega)]
      rfl
termination_by x xs => (JItems.cons x xs).need
decreasing_by all_goals (simp [Json.need, JItems.need, JMembers.need] <;> omega)
theorem readMembers_dump : ∀ (k : List Char) (x : Json) (ms : JMembers) (F i j : Nat) (t : List Char),
    (JMembers.cons k x ms).need ≤ F →
    ∃ r, jsonStr k ++ (':' :: ' ' :: (x.dump i ++ (ms.dumpRest i ++ (newline j ++ ('}' :: t))))) = '"' :: r ∧
      readMembers F r = some (.cons k x ms, t)
  | k, x, .nil, F, i, j, t, hF => by
      obtain ⟨F, rfl⟩ : ∃ k, F = k + 1 := ⟨F - 1, by simp [JMembers.need] at hF; omega⟩
      obtain ⟨r, e, hr⟩ := readStr_jsonStr k (':' :: ' ' :: (x.dump i ++ (JMembers.nil.dumpRest i ++ (newline j ++ ('}' :: t)))))
      refine ⟨r, e, ?_⟩
      rw [readMembers, hr]
      simp only
      rw [skipSpace_cons (by decide)]
      simp only [if_true]
      have hs : ∀ q, skipSpace (' ' :: q) = skipSpace q := fun q => by simp [skipSpace, isJsonSpace]
      rw [hs, skipSpace_dump, readVal_dump x F i _ (by simp [JMembers.need] at hF; omega) (stops_members _ _ _ _)]
      simp only [JMembers.dumpRest, List.nil_append]
      rw [skipSpace_newline, skipSpace_cons (by decide)]
      simp
  | k, x, .cons k' y ms, F, i, j, t, hF => by
      obtain ⟨F, rfl⟩ : ∃ k, F = k + 1 := ⟨F - 1, by simp [JMembers.need] at hF; omega⟩
      obtain ⟨r, e, hr⟩ := readStr_jsonStr k (':' :: ' ' :: (x.dump i ++ ((JMembers.cons k' y ms).dumpRest i ++ (newline j ++ ('}' :: t)))))
      obtain ⟨r', e', hr'⟩ := readMembers_dump k' y ms F i j t (by simp [JMembers.need] at hF ⊢; omega)
      refine ⟨r, e, ?_⟩
      rw [readMembers, hr]
      simp only
      rw [skipSpace_cons (by decide)]
      simp only [if_true]
      have hs : ∀ q, skipSpace (' ' :: q) = skipSpace q := fun q => by simp [skipSpace, isJsonSpace]
      rw [hs, skipSpace_dump, readVal_dump x F i _ (by simp [JMembers.need] at hF; omega) (stops_members _ _ _ _)]
      simp only [JMembers.dumpRest, List.cons_append, List.append_assoc]
      rw [skipSpace_cons (by decide)]
      simp only
      rw [if_neg (by decide), if_pos trivial, skipSpace_newline]
      simp only [List.nil_append] at e' ⊢
      rw [e', skipSpace_cons (by decide)]
      simp only [if_true]
      rw [hr']; rfl
termination_by k x ms => (JMembers.cons k x ms).need
decreasing_by all_goals (simp [Json.need, JItems.need, JMembers.need] <;> omega)
end

mutual
theorem Json.need_le : ∀ (v : Json) (i : Nat), v.need ≤ (v.dump i).length
  | .null, _ => by simp [Json.need, Json.dump]
  | .bool true, _ => by simp [Json.need, Json.dump]
  | .bool false, _ => by simp [Json.need, Json.dump]
  | .int n, _ => by
      obtain ⟨c, r, e, _⟩ := jsonInt_head n
      simp [Json.need, Json.dump, e]
  | .str s, _ => by simp [Json.need, Json.dump, jsonStr]
  | .arr .nil, _ => by simp [Json.need, Json.dump, JItems.need]
  | .arr (.cons x xs), i => by
      have h1 := x.need_le (i + 4)
      have h2 := xs.need_le (i + 4)
      simp [Json.need, Json.dump, JItems.need, newline]; omega
  | .obj .nil, _ => by simp [Json.need, Json.dump, JMembers.need]
  | .obj (.cons k x ms), i => by
      have h1 := x.need_le (i + 4)
      have h2 := ms.need_le (i + 4)
      simp [Json.need, Json.dump, JMembers.need, newline]; omega
theorem JItems.need_le : ∀ (xs : JItems) (i : Nat), xs.need ≤ (xs.dumpRest i).length
  | .nil, _ => by simp [JItems.need]
  | .cons x xs, i => by
      have h1 := x.need_le i
      have h2 := xs.need_le i
      simp [JItems.need, JItems.dumpRest]; omega
theorem JMembers.need_le : ∀ (ms : JMembers) (i : Nat), ms.need ≤ (ms.dumpRest i).length
  | .nil, _ => by simp [JMembers.need]
  | .cons k x ms, i => by
      have h1 := x.need_le i
      have h2 := ms.need_le i
      simp [JMembers.need, JMembers.dumpRest]; omega
end

/-! ### More text after a value -/

theorem skipSpace_append {t q : List Char} (h : skipSpace t ≠ []) : skipSpace (t ++ q) = skipSpace t ++ q := by
  induction t with
  | nil => simp [skipSpace] at h
  | cons c t ih =>
    by_cases hc : isJsonSpace c = true
    · have e : ∀ u, skipSpace (c :: u) = skipSpace u := fun u => by simp [skipSpace, hc]
      rw [List.cons_append, e, e]
      rw [e] at h
      exact ih h
    · have hc : isJsonSpace c = false := by simpa using hc
      rw [List.cons_append, skipSpace_cons hc, skipSpace_cons hc, List.cons_append]

theorem readUnits_append (q : List Char) : ∀ (n : Nat) (t : List Char) (us : List Nat) (r : List Char), t.length ≤ n →
    readUnits t = some (us, r) → readUnits (t ++ q) = some (us, r ++ q) := by
  intro n
  induction n with
  | zero =>
    intro t us r hn h
    have : t = [] := List.length_eq_zero_iff.1 (by omega)
    subst this
    rw [readUnits.eq_def] at h; simp at h
  | succ n ih =>
    intro t us r hn h
    cases t with
    | nil => rw [readUnits.eq_def] at h; simp at h
    | cons c t =>
      simp only [List.length_cons] at hn
      rw [readUnits.eq_def] at h
      rw [List.cons_append, readUnits.eq_def]
      simp only at h ⊢
      by_cases h1 : c = '"'
      · rw [if_pos h1] at h ⊢
        simp at h; simp [h.1.symm, h.2]
      rw [if_neg h1] at h ⊢
      by_cases h2 : c = '\\'
      · rw [if_pos h2] at h ⊢
        split at h
        · next a b c d r' =>
          simp only [List.cons_append]
          split at h
          · cases h
          · simp only [Option.map_eq_some_iff, Prod.exists] at h ⊢
            obtain ⟨us', r1, h, e⟩ := h
            simp only [List.length_cons] at hn
            simp only [Prod.mk.injEq] at e
            exact ⟨us', r1 ++ q, ih _ _ _ (by omega) h, by simp [e.1, e.2]⟩
        · next e r' hno =>
          simp only [List.length_cons] at hn
          split at h
          · cases h
          · next m hm =>
            have hu : e ≠ 'u' := by rintro rfl; simp [unescape] at hm
            simp only [Option.map_eq_some_iff, Prod.exists] at h
            obtain ⟨us', r1, h, e1⟩ := h
            simp only [Prod.mk.injEq] at e1
            have hih := ih _ _ _ (by omega) h
            rw [List.cons_append]
            split
            · next he => injection he with he _; exact absurd he hu
            · next he => injection he with he1 he2; subst he1 he2; rw [hm]; simp [hih, e1.1, e1.2]
            · next he => cases he
        · cases h
      rw [if_neg h2] at h ⊢
      split at h
      · cases h
      · next h3 =>
        rw [if_neg h3]
        simp only [Option.map_eq_some_iff, Prod.exists] at h ⊢
        obtain ⟨us', r1, h, e⟩ := h
        simp only [Prod.mk.injEq] at e
        exact ⟨us', r1 ++ q, ih _ _ _ (by omega) h, by simp [e.1, e.2]⟩

theorem readStr_append {t s r : List Char} (q : List Char) (h : readStr t = some (s, r)) :
    readStr (t ++ q) = some (s, r ++ q) := by
  rw [readStr] at h ⊢
  split at h
  · cases h
  · next us r' hu =>
    rw [readUnits_append q t.length t us r' (Nat.le_refl _) hu]
    simp only [Option.map_eq_some_iff, Prod.mk.injEq] at h ⊢
    obtain ⟨s', h1, h2, h3⟩ := h
    exact ⟨s', h1, h2, by rw [h3]⟩

theorem readNat_append {t : List Char} {n : Nat} {r : List Char} (q : List Char) (h : readNat t = some (n, r)) (hr : r ≠ []) :
    readNat (t ++ q) = some (n, r ++ q) := by
  cases t with
  | nil => simp [readNat] at h
  | cons c t =>
    rw [List.cons_append]
    simp only [readNat] at h ⊢
    split at h
    · next e => rw [if_pos e]; simp at h; simp [h.1.symm, h.2]
    · next e =>
      rw [if_neg e]
      split at h
      · next hd =>
        simp only [Option.some.injEq, Prod.mk.injEq] at h
        obtain ⟨h1, h2⟩ := h
        have hne : ∃ x ∈ t, x.isDigit = false := by
          by_contra hc
          push Not at hc
          have : t.dropWhile Char.isDigit = [] := by
            clear h1 h2
            induction t with
            | nil => rfl
            | cons d t ih =>
              have hd : d.isDigit = true := by simpa using hc d List.mem_cons_self
              simp [hd, ih (fun x hx => hc x (List.mem_cons_of_mem _ hx))]
          exact hr (h2.symm.trans this)
        have ht : (t ++ q).takeWhile Char.isDigit = t.takeWhile Char.isDigit := by
          clear h1 h2
          induction t with
          | nil => obtain ⟨x, hx, _⟩ := hne; simp at hx
          | cons d t ih =>
            by_cases hdd : d.isDigit = true
            · obtain ⟨x, hx, hxd⟩ := hne
              rcases List.mem_cons.1 hx with rfl | hx
              · rw [hdd] at hxd; cases hxd
              · simp [hdd, ih ⟨x, hx, hxd⟩]
            · simp [hdd]
        have hd' : (t ++ q).dropWhile Char.isDigit = t.dropWhile Char.isDigit ++ q := by
          clear h1 h2 ht
          induction t with
          | nil => obtain ⟨x, hx, _⟩ := hne; simp at hx
          | cons d t ih =>
            by_cases hdd : d.isDigit = true
            · obtain ⟨x, hx, hxd⟩ := hne
              rcases List.mem_cons.1 hx with rfl | hx
              · rw [hdd] at hxd; cases hxd
              · simp [hdd, ih ⟨x, hx, hxd⟩]
            · simp [hdd]
        simp [hd, ht, hd', h1, h2]
      · cases h

theorem readSigned_append {t : List Char} {n : Int} {r : List Char} (q : List Char) (h : readSigned t = some (n, r))
    (hr : r ≠ []) : readSigned (t ++ q) = some (n, r ++ q) := by
  rw [readSigned.eq_def] at h
  split at h
  · next r' =>
    simp only [Option.map_eq_some_iff, Prod.exists, Prod.mk.injEq] at h
    obtain ⟨m, r1, h1, h2, h3⟩ := h
    subst h3
    rw [List.cons_append, readSigned, readNat_append q h1 hr]
    simp [h2]
  · next hno =>
    simp only [Option.map_eq_some_iff, Prod.exists, Prod.mk.injEq] at h
    obtain ⟨m, r1, h1, h2, h3⟩ := h
    subst h3
    rw [readSigned.eq_def]
    split
    · next r' e =>
      cases t with
      | nil => simp [readNat] at h1
      | cons c t => rw [List.cons_append] at e; injection e with e _; exact absurd (by rw [e]) (hno t)
    · rw [readNat_append q h1 hr]; simp [h2]

theorem readInt_append {t : List Char} {n : Int} {r : List Char} (q : List Char) (h : readInt t = some (n, r)) (hr : r ≠ []) :
    readInt (t ++ q) = some (n, r ++ q) := by
  rw [readInt] at h ⊢
  split at h
  · cases h
  · next m r' hs =>
    split at h
    · cases h
    · next hc =>
      simp only [Option.some.injEq, Prod.mk.injEq] at h
      obtain ⟨h1, h2⟩ := h
      subst h1 h2
      rw [readSigned_append q hs hr]
      have : (r' ++ q).head? = r'.head? := by
        cases r' with
        | nil => exact absurd rfl hr
        | cons c r' => rfl
      simp only [this]
      rw [if_neg hc]

theorem readWord_append {w t r : List Char} (q : List Char) (h : readWord w t = some r) : readWord w (t ++ q) = some (r ++ q) := by
  rw [readWord] at h ⊢
  split at h
  · next hp =>
    simp only [Option.some.injEq] at h
    rw [List.isPrefixOf_iff_prefix] at hp
    obtain ⟨s, hs⟩ := hp
    subst hs
    have : w <+: w ++ s ++ q := ⟨s ++ q, by simp⟩
    rw [if_pos (List.isPrefixOf_iff_prefix.2 this)]
    simp at h ⊢
    exact h
  · cases h

/-- The value is not a number, or the text did not end with it. -/
def JClosed (v : Json) (r : List Char) : Prop := (∀ n, v ≠ .int n) ∨ r ≠ []

mutual
theorem readVal_append (q : List Char) : ∀ (F : Nat) (t : List Char) (v : Json) (r : List Char), readVal F t = some (v, r) →
    JClosed v r → ∀ G, F ≤ G → readVal G (t ++ q) = some (v, r ++ q)
  | 0, t, v, r, h, _, _, _ => by simp [readVal] at h
  | F + 1, [], v, r, h, _, _, _ => by simp [readVal] at h
  | F + 1, c :: t, v, r, h, hcl, G, hG => by
      obtain ⟨G, rfl⟩ : ∃ k, G = k + 1 := ⟨G - 1, by omega⟩
      rw [List.cons_append]
      simp only [readVal] at h ⊢
      split at h
      · next h1 =>
        rw [if_pos h1]
        simp only [Option.map_eq_some_iff, Prod.exists, Prod.mk.injEq] at h
        obtain ⟨s, r1, h, e1, e2⟩ := h
        rw [readStr_append q h]; simp [e1, e2]
      next h1 =>
      rw [if_neg h1]
      split at h
      · next h2 =>
        rw [if_pos h2]
        split at h
        · cases h
        · next d r1 hs =>
          have hne : skipSpace t ≠ [] := by rw [hs]; simp
          rw [skipSpace_append hne, hs, List.cons_append]
          simp only
          split at h
          · next h3 => rw [if_pos h3]; simp at h; simp [h.1.symm, h.2]
          · next h3 =>
            rw [if_neg h3]
            split at h
            · next h4 =>
              rw [if_pos h4]
              simp only [Option.map_eq_some_iff, Prod.exists, Prod.mk.injEq] at h
              obtain ⟨s, r2, h, e1, e2⟩ := h
              rw [readMembers_append q F r1 s r2 h G (by omega)]; simp [e1, e2]
            · cases h
      next h2 =>
      rw [if_neg h2]
      split at h
      · next h3 =>
        rw [if_pos h3]
        split at h
        · cases h
        · next d r1 hs =>
          have hne : skipSpace t ≠ [] := by rw [hs]; simp
          rw [skipSpace_append hne, hs, List.cons_append]
          simp only
          split at h
          · next h4 => rw [if_pos h4]; simp at h; simp [h.1.symm, h.2]
          · next h4 =>
            rw [if_neg h4]
            simp only [Option.map_eq_some_iff, Prod.exists, Prod.mk.injEq] at h
            obtain ⟨s, r2, h, e1, e2⟩ := h
            have := readItems_append q F (d :: r1) s r2 h G (by omega)
            rw [List.cons_append] at this
            rw [this]; simp [e1, e2]
      next h3 =>
      rw [if_neg h3]
      split at h
      · next h4 =>
        rw [if_pos h4]
        simp only [Option.map_eq_some_iff, Prod.mk.injEq] at h
        obtain ⟨r1, h, e1, e2⟩ := h
        rw [readWord_append q h]; simp [e1, e2]
      next h4 =>
      rw [if_neg h4]
      split at h
      · next h5 =>
        rw [if_pos h5]
        simp only [Option.map_eq_some_iff, Prod.mk.injEq] at h
        obtain ⟨r1, h, e1, e2⟩ := h
        rw [readWord_append q h]; simp [e1, e2]
      next h5 =>
      rw [if_neg h5]
      split at h
      · next h6 =>
        rw [if_pos h6]
        simp only [Option.map_eq_some_iff, Prod.mk.injEq] at h
        obtain ⟨r1, h, e1, e2⟩ := h
        rw [readWord_append q h]; simp [e1, e2]
      next h6 =>
      rw [if_neg h6]
      simp only [Option.map_eq_some_iff, Prod.exists, Prod.mk.injEq] at h
      obtain ⟨n, r1, h, e1, e2⟩ := h
      subst e1 e2
      have hr : r1 ≠ [] := by
        rcases hcl with hcl | hcl
        · exact absurd rfl (hcl n)
        · exact hcl
      have := readInt_append q h hr
      rw [List.cons_append] at this
      rw [this]; rfl
theorem readItems_append (q : List Char) : ∀ (F : Nat) (t : List Char) (v : JItems) (r : List Char), readItems F t = some (v, r) →
    ∀ G, F ≤ G → readItems G (t ++ q) = some (v, r ++ q)
  | 0, t, v, r, h, _, _ => by simp [readItems] at h
  | F + 1, t, v, r, h, G, hG => by
      obtain ⟨G, rfl⟩ : ∃ k, G = k + 1 := ⟨G - 1, by omega⟩
      rw [readItems] at h ⊢
      split at h
      · cases h
      · next x r0 hx =>
        split at h
        · cases h
        · next c r1 hs =>
          have hne : skipSpace r0 ≠ [] := by rw [hs]; simp
          have hr0 : r0 ≠ [] := by rintro rfl; simp [skipSpace] at hne
          rw [readVal_append q F t x r0 hx (.inr hr0) G (by omega)]
          simp only
          rw [skipSpace_append hne, hs, List.cons_append]
          simp only
          split at h
          · next h3 => rw [if_pos h3]; simp at h; simp [h.1.symm, h.2]
          · next h3 =>
            rw [if_neg h3]
            split at h
            · next h4 =>
              rw [if_pos h4]
              simp only [Option.map_eq_some_iff, Prod.exists, Prod.mk.injEq] at h
              obtain ⟨s, r2, h, e1, e2⟩ := h
              have hne1 : skipSpace r1 ≠ [] := by
                intro e
                rw [e] at h
                cases F with
                | zero => simp [readItems] at h
                | succ F => cases F <;> simp [readItems, readVal] at h
              rw [skipSpace_append hne1, readItems_append q F _ s r2 h G (by omega)]; simp [e1, e2]
            · cases h
theorem readMembers_append (q : List Char) : ∀ (F : Nat) (t : List Char) (v : JMembers) (r : List Char), readMembers F t = some (v, r) →
    ∀ G, F ≤ G → readMembers G (t ++ q) = some (v, r ++ q)
  | 0, t, v, r, h, _, _ => by simp [readMembers] at h
  | F + 1, t, v, r, h, G, hG => by
      obtain ⟨G, rfl⟩ : ∃ k, G = k + 1 := ⟨G - 1, by omega⟩
      rw [readMembers] at h ⊢
      split at h
      · cases h
      · next k r0 hk =>
        rw [readStr_append q hk]
        simp only
        split at h
        · cases h
        · next c r1 hs =>
          have hne : skipSpace r0 ≠ [] := by rw [hs]; simp
          rw [skipSpace_append hne, hs, List.cons_append]
          simp only
          split at h
          · next h3 =>
            rw [if_pos h3]
            split at h
            · cases h
            · next x r2 hx =>
              split at h
              · cases h
              · next d r3 hs2 =>
                have hne2 : skipSpace r2 ≠ [] := by rw [hs2]; simp
                have hr2 : r2 ≠ [] := by rintro rfl; simp [skipSpace] at hne2
                have hne1 : skipSpace r1 ≠ [] := by
                  intro e
                  rw [e] at hx
                  cases F <;> simp [readVal] at hx
                rw [skipSpace_append hne1, readVal_append q F _ x r2 hx (.inr hr2) G (by omega)]
                simp only
                rw [skipSpace_append hne2, hs2, List.cons_append]
                simp only
                split at h
                · next h4 => rw [if_pos h4]; simp at h; simp [h.1.symm, h.2]
                · next h4 =>
                  rw [if_neg h4]
                  split at h
                  · next h5 =>
                    rw [if_pos h5]
                    split at h
                    · cases h
                    · next e r4 hs3 =>
                      have hne3 : skipSpace r3 ≠ [] := by rw [hs3]; simp
                      rw [skipSpace_append hne3, hs3, List.cons_append]
                      simp only
                      split at h
                      · next h6 =>
                        rw [if_pos h6]
                        simp only [Option.map_eq_some_iff, Prod.exists, Prod.mk.injEq] at h
                        obtain ⟨s, r5, h, e1, e2⟩ := h
                        rw [readMembers_append q F _ s r5 h G (by omega)]; simp [e1, e2]
                      · cases h
                  · cases h
          · cases h
end

theorem jsonLoads_dumps (v : Json) : jsonLoads (jsonDumps v) = some v := by
  have h := readVal_dump v (2 * (v.dump 0).length + 2) 0 [] (by have := v.need_le 0; omega) stops_nil
  have hs := skipSpace_dump 0 v []
  rw [List.append_nil] at h hs
  rw [jsonLoads, jsonDumps, hs, h]
  simp [skipSpace]

end Grain
