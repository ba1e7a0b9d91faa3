import Verif.Sources.Model
import Verif.Iter.OneToOne
/-
Lemmas about the file sources.
-/
namespace Grain

theorem leBytes_length : ∀ (k n : Nat), (leBytes k n).length = k := by
  intro k
  induction k with
  | zero => intro n; rfl
  | succ k ih => intro n; simp [leBytes, ih]

theorem leNat_leBytes : ∀ (k n : Nat), leNat (leBytes k n) = n % 256 ^ k := by
  intro k
  induction k with
  | zero => intro n; simp [leBytes, leNat, Nat.mod_one]
  | succ k ih =>
    intro n
    simp only [leBytes, leNat, ih]
    rw [Nat.pow_succ, Nat.mul_comm (256 ^ k) 256, Nat.mod_mul]
    simp [UInt8.toNat_ofNat']

theorem TfRecord.bytes_length {r : TfRecord} (hr : r.Valid) : r.bytes.length = 12 + (r.data.length + 4) := by
  simp only [TfRecord.bytes, List.length_append, leBytes_length, hr.lengthCrc, hr.dataCrc]
  omega

theorem TfRecord.take_header {r : TfRecord} (hr : r.Valid) : r.bytes.take 12 = leBytes 8 r.data.length ++ r.lengthCrc := by
  have h : (leBytes 8 r.data.length ++ r.lengthCrc).length = 12 := by simp [leBytes_length, hr.lengthCrc]
  simp only [TfRecord.bytes, List.append_assoc]
  rw [← List.append_assoc, ← h, List.take_left]

theorem TfRecord.drop_header {r : TfRecord} (hr : r.Valid) : r.bytes.drop 12 = r.data ++ r.dataCrc := by
  have h : (leBytes 8 r.data.length ++ r.lengthCrc).length = 12 := by simp [leBytes_length, hr.lengthCrc]
  simp only [TfRecord.bytes, List.append_assoc]
  rw [← List.append_assoc, ← h, List.drop_left]

theorem TfRecord.header_length {r : TfRecord} (hr : r.Valid) :
    leNat ((leBytes 8 r.data.length ++ r.lengthCrc).take 8) = r.data.length := by
  rw [List.take_left' (leBytes_length 8 _), leNat_leBytes, Nat.mod_eq_of_lt]
  have := hr.length
  unfold maxsize at this
  omega

theorem tfNext_eof {file : List UInt8} {off : Nat} (h : file.length ≤ off) : tfNext file off = (off, .stop) := by
  have h0 : file.drop off = [] := List.drop_eq_nil_of_le h
  simp [tfNext, fileRead, maxsize, h0]

theorem tfNext_record {file rest : List UInt8} {off : Nat} {r : TfRecord} (hr : r.Valid) (h : file.drop off = r.bytes ++ rest) :
    tfNext file off = (off + r.bytes.length, .item r.data) := by
  have hlen := TfRecord.bytes_length hr
  have h1 : (r.bytes ++ rest).take 12 = leBytes 8 r.data.length ++ r.lengthCrc := by
    rw [List.take_append_of_le_length (by omega), TfRecord.take_header hr]
  have h2 : (leBytes 8 r.data.length ++ r.lengthCrc).length = 12 := by simp [leBytes_length, hr.lengthCrc]
  have h3 : (file.drop (off + 12)).take (r.data.length + 4) = r.data ++ r.dataCrc := by
    rw [← List.drop_drop, h, List.drop_append_of_le_length (by omega), TfRecord.drop_header hr]
    exact List.take_left' (by simp [hr.dataCrc])
  have hle : ¬ maxsize < r.data.length + 4 := by have := hr.length; omega
  have hne : (leBytes 8 r.data.length ++ r.lengthCrc).isEmpty = false := by
    cases hq : leBytes 8 r.data.length ++ r.lengthCrc with
    | nil => rw [hq] at h2; simp at h2
    | cons a l => rfl
  have hd : (r.data ++ r.dataCrc).length = r.data.length + 4 := by simp [hr.dataCrc]
  simp only [tfNext, fileRead, show ¬ maxsize < 8 + 4 by decide, if_false, Nat.reduceAdd, h, h1, h2, hne, ne_eq, not_true,
    TfRecord.header_length hr, hle, h3, hd, List.take_left]
  simp only [Bool.false_eq_true, if_false]
  rw [hlen]
  congr 1
  omega

theorem tfNext_partial {file p q : List UInt8} {off : Nat} {r : TfRecord} (hr : r.Valid) (h : file.drop off = p) (hp : p ≠ [])
    (hq : q ≠ []) (hpq : r.bytes = p ++ q) : tfNext file off = (file.length, .fail .valueError) := by
  have hlen := TfRecord.bytes_length hr
  have hl : p.length + q.length = 12 + (r.data.length + 4) := by rw [← hlen, hpq, List.length_append]
  have hfl : file.length = off + p.length := by
    have := congrArg List.length h
    rw [List.length_drop] at this
    have := List.length_pos_iff.2 hp
    omega
  have hp0 := List.length_pos_iff.2 hp
  have hq0 := List.length_pos_iff.2 hq
  by_cases h12 : p.length < 12
  · have h1 : p.take 12 = p := List.take_of_length_le (by omega)
    have hne : p.isEmpty = false := by cases p with
      | nil => exact absurd rfl hp
      | cons a l => rfl
    simp only [tfNext, fileRead, show ¬ maxsize < 8 + 4 by decide, if_false, Nat.reduceAdd, h, h1, hne]
    rw [if_neg (by simp), if_pos (by omega), hfl]
  · have h1 : p.take 12 = leBytes 8 r.data.length ++ r.lengthCrc := by
      rw [← TfRecord.take_header hr, hpq, List.take_append_of_le_length (by omega)]
    have h2 : (leBytes 8 r.data.length ++ r.lengthCrc).length = 12 := by simp [leBytes_length, hr.lengthCrc]
    have hne : (leBytes 8 r.data.length ++ r.lengthCrc).isEmpty = false := by
      cases hq : leBytes 8 r.data.length ++ r.lengthCrc with
      | nil => rw [hq] at h2; simp at h2
      | cons a l => rfl
    have h3 : (file.drop (off + 12)).take (r.data.length + 4) = p.drop 12 := by
      rw [← List.drop_drop, h]
      exact List.take_of_length_le (by rw [List.length_drop]; omega)
    have hle : ¬ maxsize < r.data.length + 4 := by have := hr.length; omega
    simp only [tfNext, fileRead, show ¬ maxsize < 8 + 4 by decide, if_false, Nat.reduceAdd, h, h1, h2, hne, ne_eq, not_true,
      TfRecord.header_length hr, hle, h3, List.length_drop]
    rw [if_neg (by simp), if_pos (by omega), hfl]
    congr 1
    omega

/-- A file of complete records followed by `tail`, where reading at the end of the records gives the outcomes `last` and then
`StopIteration`. -/
theorem tf_resumes {rs : List TfRecord} (hv : ∀ r ∈ rs, r.Valid) (tail : List UInt8)
    (htail : tail = [] ∨ ∃ r q, TfRecord.Valid r ∧ q ≠ [] ∧ r.bytes = tail ++ q) :
    Resumes (tfRecordIter (tfFile rs ++ tail))
      (rs.map (fun r => .ok r.data) ++ if tail = [] then [] else [.error .valueError]) true := by
  have hlen : (rs.map (fun r : TfRecord => (.ok r.data : Py (List UInt8))) ++ if tail = [] then [] else [Except.error Err.valueError]).length =
      rs.length + if tail = [] then 0 else 1 := by
    split <;> simp
  let off (n : Nat) : Nat := if n ≤ rs.length then (tfFile (rs.take n)).length else (tfFile rs ++ tail).length
  have hoff : ∀ n r, rs[n]? = some r → ∃ rest, (tfFile rs ++ tail).drop (off n) = r.bytes ++ rest ∧ off n + r.bytes.length = off (n + 1) := by
    intro n r h
    have hn := getElem?_lt h
    refine ⟨tfFile (rs.drop (n + 1)) ++ tail, ?_, ?_⟩
    · have e : rs = rs.take n ++ r :: rs.drop (n + 1) := by
        conv => lhs; rw [← List.take_append_drop n rs]
        rw [List.drop_eq_getElem_cons hn, (List.getElem?_eq_some_iff.1 h).2]
      have e2 : tfFile rs = tfFile (rs.take n) ++ (r.bytes ++ tfFile (rs.drop (n + 1))) := by
        conv => lhs; rw [e]
        simp [tfFile]
      simp only [off, if_pos (Nat.le_of_lt hn)]
      rw [e2, List.append_assoc, List.append_assoc, List.drop_left]
    · simp only [off, if_pos (Nat.le_of_lt hn), if_pos hn]
      rw [List.take_add_one, h]
      simp only [tfFile, List.flatMap_append, List.length_append, Option.toList_some, List.flatMap_singleton]
      split <;> omega
  have hoffend : off rs.length = (tfFile rs).length := by simp [off]
  refine ⟨fun s n => s = off n ∧ n ≤ rs.length + if tail = [] then 0 else 1,
    fun c n => c = off n ∧ n ≤ rs.length + if tail = [] then 0 else 1, ?_⟩
  refine { init := ⟨by simp [off, tfFile, tfRecordIter], by omega⟩, bound := fun h => by rw [hlen]; exact h.2, next_item := ?_, next_stop := ?_,
           get := fun h => ⟨h, h⟩, set := fun _ h _ => ⟨_, Ev.of_forall (fun _ => rfl), h⟩, ck_bound := fun h => by rw [hlen]; exact h.2 }
  · rintro s n o ⟨rfl, hn⟩ ho
    by_cases hlt : n < rs.length
    · rw [List.getElem?_append_left (by simpa using hlt), List.getElem?_map, List.getElem?_eq_getElem hlt] at ho
      cases ho
      obtain ⟨rest, h1, h2⟩ := hoff n rs[n] (List.getElem?_eq_getElem hlt)
      refine ⟨off (n + 1), Ev.of_forall (fun F => ?_), rfl, by omega⟩
      show some (tfNext _ _) = _
      rw [tfNext_record (hv _ (List.getElem_mem hlt)) h1, h2]
      rfl
    · rw [List.getElem?_append_right (by simp; omega)] at ho
      by_cases ht : tail = []
      · simp [ht] at ho
      · rw [if_neg ht] at ho hn
        have hn' : n = rs.length := by
          by_contra hc
          have : n - (rs.map (fun r => (.ok r.data : Py (List UInt8)))).length = 1 := by simp; omega
          rw [this] at ho
          simp at ho
        subst hn'
        simp at ho
        subst ho
        rcases htail with ht' | ⟨r, q, hr, hq, hb⟩
        · exact absurd ht' ht
        refine ⟨off (rs.length + 1), Ev.of_forall (fun F => ?_), rfl, by rw [if_neg ht]⟩
        show some (tfNext _ _) = _
        rw [tfNext_partial hr (p := tail) (q := q) (by rw [hoffend, List.drop_left]) ht hq hb]
        simp only [off, toRes]
        rw [if_neg (by omega)]
        rfl
  · rintro s ⟨rfl, hn⟩ _
    refine ⟨off _, Ev.of_forall (fun F => ?_), rfl, hn⟩
    show some (tfNext _ _) = _
    rw [tfNext_eof]
    · rfl
    · rw [hlen]
      by_cases ht : tail = []
      · simp [ht, off]
      · simp only [ht, off, if_false]
        rw [if_neg (by omega)]

/-- Cutting a file after `n` bytes leaves some complete records and a part of the next one. -/
theorem tf_cut : ∀ {rs : List TfRecord}, (∀ r ∈ rs, r.Valid) → ∀ n : Nat,
    ∃ k tail, k ≤ rs.length ∧ (tfFile (rs.take k)).length ≤ n ∧
      (∀ j, j ≤ rs.length → (tfFile (rs.take j)).length ≤ n → j ≤ k) ∧
      (tfFile rs).take n = tfFile (rs.take k) ++ tail ∧
      (tail = [] ∨ ∃ r q, TfRecord.Valid r ∧ q ≠ [] ∧ r.bytes = tail ++ q) ∧
      (tail = [] ↔ n = (tfFile (rs.take k)).length ∨ k = rs.length) := by
  intro rs
  induction rs with
  | nil =>
    intro _ n
    exact ⟨0, [], by simp, by simp [tfFile], by simp, by simp [tfFile], Or.inl rfl, by simp⟩
  | cons r rs ih =>
    intro hv n
    have hr := hv r List.mem_cons_self
    have hl := TfRecord.bytes_length hr
    by_cases hn : n < r.bytes.length
    · refine ⟨0, r.bytes.take n, by simp, by simp [tfFile], ?_, ?_, ?_, ?_⟩
      · intro j _ hj
        cases j with
        | zero => omega
        | succ j =>
          simp [tfFile] at hj
          omega
      · simp only [tfFile, List.flatMap_cons, List.take_zero, List.flatMap_nil, List.nil_append]
        exact List.take_append_of_le_length (by omega)
      · refine Or.inr ⟨r, r.bytes.drop n, hr, ?_, (List.take_append_drop n _).symm⟩
        intro h
        have := congrArg List.length h
        simp at this
        omega
      · simp only [List.take_zero, tfFile, List.flatMap_nil, List.length_nil, List.length_cons]
        constructor
        · intro h
          have := congrArg List.length h
          simp at this
          rcases this with h | h
          · exact Or.inl h
          · rw [h] at hl; simp at hl
        · rintro (h | h)
          · simp [h]
          · omega
    · obtain ⟨k, tail, h1, h2, h3, h4, h5, h6⟩ := ih (fun r hr => hv r (List.mem_cons_of_mem _ hr)) (n - r.bytes.length)
      have hc : ∀ l, (tfFile (r :: l)).length = r.bytes.length + (tfFile l).length := by intro l; simp [tfFile]
      refine ⟨k + 1, tail, by simpa using h1, ?_, ?_, ?_, h5, ?_⟩
      · rw [List.take_succ_cons, hc]; omega
      · intro j hj hjl
        cases j with
        | zero => omega
        | succ j =>
          rw [List.take_succ_cons, hc] at hjl
          have := h3 j (by simpa using hj) (by omega)
          omega
      · rw [List.take_succ_cons]
        have e : ∀ l, tfFile (r :: l) = r.bytes ++ tfFile l := by intro l; rfl
        rw [e, e, List.take_append, List.take_of_length_le (by omega), h4, List.append_assoc]
      · rw [h6, List.take_succ_cons, hc, List.length_cons]
        omega

/-! ### Parquet -/

theorem dictSet_new {d : List (String × β)} {k : String} {v : β} (h : k ∉ d.map (·.1)) : dictSet d k v = d ++ [(k, v)] := by
  have : d.any (fun p => p.1 = k) = false := by
    rw [List.any_eq_false]
    intro p hp
    simp only [decide_eq_true_eq]
    intro hk
    exact h (List.mem_map.2 ⟨p, hp, hk⟩)
  simp [dictSet, this]

theorem pqDict_eq {t : PqTable V} (h : (t.columns.map (·.1)).Nodup) : pqDict t = t.columns := by
  have key : ∀ (l d : List (String × List V)), ((d ++ l).map (·.1)).Nodup → l.foldl (fun d c => dictSet d c.1 c.2) d = d ++ l := by
    intro l
    induction l with
    | nil => intro d _; simp
    | cons c l ih =>
      intro d hd
      rw [List.foldl_cons, dictSet_new, ih]
      · simp
      · simpa using hd
      · intro hc
        simp only [List.map_append, List.map_cons] at hd
        exact (List.nodup_append.1 hd).2.2 _ hc _ List.mem_cons_self rfl
  exact key t.columns [] (by simpa using h)

theorem pqItem_row {t : PqTable V} (h : t.Valid) {i : Nat} (hi : i < t.rows) : pqItem (pqDict t) i = .ok (t.row i) := by
  rw [pqDict_eq h.names]
  have key : ∀ l : List (String × List V), (∀ c ∈ l, c.2.length = t.rows) →
      pqItem l i = .ok (l.filterMap (fun c => c.2[i]?.map (fun v => (c.1, v)))) := by
    intro l
    induction l with
    | nil => intro _; rfl
    | cons c l ih =>
      intro hl
      have hc : c.2[i]? = some (c.2[i]'(by rw [hl c List.mem_cons_self]; exact hi)) := List.getElem?_eq_getElem _
      have := ih (fun c hc => hl c (List.mem_cons_of_mem _ hc))
      unfold pqItem at this ⊢
      rw [List.mapM_cons, this]
      simp only [hc, List.filterMap_cons, Option.map_some]
      rfl
  exact key _ h.columns

/-- The number of rows before row group `g`. -/
def pqBefore (groups : List (PqTable V)) (g : Nat) : Nat := (pqRows (groups.take g)).length

theorem pqRows_length_cons (t : PqTable V) (l : List (PqTable V)) : (pqRows (t :: l)).length = t.rows + (pqRows l).length := by
  simp [pqRows]

theorem pqBefore_succ {groups : List (PqTable V)} {g : Nat} {t : PqTable V} (h : groups[g]? = some t) :
    pqBefore groups (g + 1) = pqBefore groups g + t.rows := by
  unfold pqBefore
  rw [List.take_add_one, h]
  simp [pqRows]

theorem pqBefore_le {groups : List (PqTable V)} (g : Nat) : pqBefore groups g ≤ (pqRows groups).length := by
  have : pqRows groups = pqRows (groups.take g) ++ pqRows (groups.drop g) := by
    conv => lhs; rw [← List.take_append_drop g groups]
    simp only [pqRows, List.flatMap_append]
  rw [this, List.length_append]
  exact Nat.le_add_right _ _

theorem pqRows_get {groups : List (PqTable V)} {g i : Nat} {t : PqTable V} (h : groups[g]? = some t) (hi : i < t.rows) :
    (pqRows groups)[pqBefore groups g + i]? = some (t.row i) := by
  have hg := getElem?_lt h
  have e : groups = groups.take g ++ t :: groups.drop (g + 1) := by
    conv => lhs; rw [← List.take_append_drop g groups]
    rw [List.drop_eq_getElem_cons hg, (List.getElem?_eq_some_iff.1 h).2]
  have e2 : pqRows groups = pqRows (groups.take g) ++ ((List.range t.rows).map t.row ++ pqRows (groups.drop (g + 1))) := by
    conv => lhs; rw [e]
    simp [pqRows]
  rw [e2, List.getElem?_append_right (by unfold pqBefore; omega)]
  have : pqBefore groups g + i - (pqRows (groups.take g)).length = i := by unfold pqBefore; omega
  rw [this, List.getElem?_append_left (by simpa using hi)]
  simp [hi]

theorem pqBefore_end {groups : List (PqTable V)} {g : Nat} (h : groups.length ≤ g) : pqBefore groups g = (pqRows groups).length := by
  unfold pqBefore
  rw [List.take_of_length_le h]

/-- The iterator is in row group `g` with its table loaded, at overall position `n`. -/
def PqAt (groups : List (PqTable V)) (s : PqState V) (n : Nat) : Prop :=
  ∃ t, groups[s.group]? = some t ∧ s.table = pqDict t ∧ s.len = t.rows ∧ s.index ≤ t.rows ∧ n = pqBefore groups s.group + s.index

theorem pqNext_item {groups : List (PqTable V)} (hv : ∀ t ∈ groups, t.Valid) : ∀ (m : Nat) (s : PqState V) (n : Nat), groups.length - s.group ≤ m →
    PqAt groups s n → ∀ r, (pqRows groups)[n]? = some r →
    ∃ s', Ev (fun F => pqNext groups F s = some (s', .item r)) ∧ PqAt groups s' (n + 1) := by
  intro m
  induction m with
  | zero =>
    rintro s n hm ⟨t, ht, _⟩
    have := getElem?_lt ht
    omega
  | succ m ih =>
    rintro s n hm ⟨t, ht, htab, hlen, hidx, rfl⟩ r hr
    have hg := getElem?_lt ht
    by_cases hi : s.index < t.rows
    · rw [pqRows_get ht hi] at hr
      cases hr
      refine ⟨{ s with index := s.index + 1 }, ⟨1, fun F hF => ?_⟩, t, ht, htab, hlen, hi, by simp; omega⟩
      obtain ⟨F, rfl⟩ : ∃ k, F = k + 1 := ⟨F - 1, by omega⟩
      rw [pqNext, if_neg (by omega), htab, pqItem_row (hv t (List.mem_of_getElem? ht)) hi]
    · have hi' : s.index = t.rows := by omega
      have hpos : pqBefore groups s.group + s.index = pqBefore groups (s.group + 1) := by rw [pqBefore_succ ht, hi']
      by_cases hg' : s.group + 1 < groups.length
      · have ht' : groups[s.group + 1]? = some groups[s.group + 1] := List.getElem?_eq_getElem hg'
        let s1 : PqState V := { group := s.group + 1, index := 0, table := pqDict groups[s.group + 1], len := (groups[s.group + 1]).rows }
        obtain ⟨s', h1, h2⟩ := ih s1 (pqBefore groups s.group + s.index) (by show groups.length - (s.group + 1) ≤ m; omega)
          ⟨_, ht', rfl, rfl, Nat.zero_le _, hpos⟩ r hr
        refine ⟨s', ?_, h2⟩
        obtain ⟨k, hk⟩ := h1
        refine ⟨k + 1, fun F hF => ?_⟩
        obtain ⟨F, rfl⟩ : ∃ k, F = k + 1 := ⟨F - 1, by omega⟩
        rw [pqNext, if_pos (by omega), if_pos hg']
        simp only [pqRead, ht']
        exact hk F (by omega)
      · rw [hpos, pqBefore_end (by omega), List.getElem?_eq_none (by omega)] at hr
        cases hr

theorem pqNext_stop {groups : List (PqTable V)} : ∀ (m : Nat) (s : PqState V), groups.length - s.group ≤ m →
    PqAt groups s (pqRows groups).length →
    ∃ s', Ev (fun F => pqNext groups F s = some (s', .stop)) ∧ PqAt groups s' (pqRows groups).length := by
  intro m
  induction m with
  | zero =>
    rintro s hm ⟨t, ht, _⟩
    have := getElem?_lt ht
    omega
  | succ m ih =>
    rintro s hm ⟨t, ht, htab, hlen, hidx, hn⟩
    have hg := getElem?_lt ht
    have hi' : s.index = t.rows := by
      have := pqBefore_le (groups := groups) (s.group + 1)
      rw [pqBefore_succ ht] at this
      omega
    by_cases hg' : s.group + 1 < groups.length
    · have ht' : groups[s.group + 1]? = some groups[s.group + 1] := List.getElem?_eq_getElem hg'
      let s1 : PqState V := { group := s.group + 1, index := 0, table := pqDict groups[s.group + 1], len := (groups[s.group + 1]).rows }
      obtain ⟨s', h1, h2⟩ := ih s1 (by show groups.length - (s.group + 1) ≤ m; omega)
        ⟨_, ht', rfl, rfl, Nat.zero_le _, by show _ = pqBefore groups (s.group + 1) + 0; rw [pqBefore_succ ht]; omega⟩
      refine ⟨s', ?_, h2⟩
      obtain ⟨k, hk⟩ := h1
      refine ⟨k + 1, fun F hF => ?_⟩
      obtain ⟨F, rfl⟩ : ∃ k, F = k + 1 := ⟨F - 1, by omega⟩
      rw [pqNext, if_pos (by omega), if_pos hg']
      simp only [pqRead, ht']
      exact hk F (by omega)
    · refine ⟨s, ⟨1, fun F hF => ?_⟩, t, ht, htab, hlen, hidx, hn⟩
      obtain ⟨F, rfl⟩ : ∃ k, F = k + 1 := ⟨F - 1, by omega⟩
      rw [pqNext, if_pos (by omega), if_neg hg']

theorem pq_resumes {groups : List (PqTable V)} (hv : ∀ t ∈ groups, t.Valid) {s : PqState V} (h : pqRead groups 0 0 = .ok s) :
    Resumes (pqIterAt groups s) ((pqRows groups).map Except.ok) true := by
  have hlen : ((pqRows groups).map (Except.ok (ε := Err))).length = (pqRows groups).length := by simp
  have hread : ∀ g i s, pqRead groups g i = .ok s → ∃ t, groups[g]? = some t ∧ s = { group := g, index := i, table := pqDict t, len := t.rows } := by
    intro g i s h
    unfold pqRead at h
    cases ht : groups[g]? with
    | none => rw [ht] at h; cases h
    | some t => rw [ht] at h; injection h with h; exact ⟨t, rfl, h.symm⟩
  have hb : ∀ s n, PqAt groups s n → n ≤ (pqRows groups).length := by
    rintro s n ⟨t, ht, _, _, hi, rfl⟩
    have := pqBefore_le (groups := groups) (s.group + 1)
    rw [pqBefore_succ ht] at this
    omega
  refine ⟨PqAt groups, fun c n => ∃ t, groups[c.1]? = some t ∧ c.2 ≤ t.rows ∧ n = pqBefore groups c.1 + c.2, ?_⟩
  refine { init := ?_, bound := fun h => by rw [hlen]; exact hb _ _ h, next_item := ?_, next_stop := ?_, get := ?_, set := ?_, ck_bound := ?_ }
  · obtain ⟨t, ht, rfl⟩ := hread _ _ _ h
    exact ⟨t, ht, rfl, rfl, Nat.zero_le _, rfl⟩
  · intro s n o hat ho
    rw [List.getElem?_map] at ho
    cases hr : (pqRows groups)[n]? with
    | none => rw [hr] at ho; cases ho
    | some r =>
      rw [hr] at ho
      cases ho
      exact pqNext_item hv _ s n (Nat.le_refl _) hat r hr
  · intro s hat _
    rw [hlen] at hat ⊢
    exact pqNext_stop _ s (Nat.le_refl _) hat
  · rintro s n ⟨t, ht, h1, h2, h3, h4⟩
    exact ⟨⟨t, ht, h1, h2, h3, h4⟩, t, ht, h3, h4⟩
  · rintro s n ⟨g, i⟩ m _ ⟨t, ht, hi, hm⟩ _
    refine ⟨{ group := g, index := i, table := pqDict t, len := t.rows }, Ev.of_forall (fun F => ?_), t, ht, rfl, rfl, hi, hm⟩
    show (match pqRead groups g i with | .error e => _ | .ok s => _) = _
    simp only [pqRead, show groups[g]? = some t from ht]
    rfl
  · rintro ⟨g, i⟩ m ⟨t, ht, hi, rfl⟩
    rw [hlen]
    have := pqBefore_le (groups := groups) (g + 1)
    rw [pqBefore_succ ht] at this
    omega

end Grain
