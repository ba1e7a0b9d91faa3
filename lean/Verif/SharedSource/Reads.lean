import Verif.SharedSource.Layout
/-
Lemmas for C94: what reading a list returns.
-/
namespace Grain

theorem write_cells {l : SmList} {fmts : List (List Char)} {xs : List SmVal} {buf : List UInt8} (h : l.write fmts xs = .ok buf) :
    ∃ cs, (fmts.zip xs).mapM (fun p => packCell p.1 p.2) = .ok cs := by
  unfold SmList.write at h
  cases h1 : (l.len :: l.offsets.map (fun (o : Nat) => (o : Int))).mapM packQ with
  | error e => rw [h1] at h; cases h
  | ok head =>
    rw [h1] at h
    cases h2 : packInto l.buf 0 head.flatten with
    | error e => simp only [bind, Except.bind, h2] at h; cases h
    | ok b =>
      cases h3 : (fmts.zip xs).mapM (fun p => packCell p.1 p.2) with
      | error e => simp only [bind, Except.bind, h2, h3] at h; cases h
      | ok cs => exact ⟨cs, rfl⟩

theorem mapM_smFormat_ok {xs : List SmVal} {fmts : List (List Char)} (h : xs.mapM smFormat = .ok fmts) :
    (∀ x ∈ xs, x ≠ .other) ∧ fmts = xs.map fmtT := by
  have hne : ∀ x ∈ xs, x ≠ .other := by
    rintro x hx rfl
    obtain ⟨y, hy⟩ := smMapM_mem h _ hx
    cases hy
  refine ⟨hne, ?_⟩
  rw [smMapM_ok (fun x hx => smFormat_ok (hne x hx))] at h
  cases h; rfl

theorem smFill_inv {heap heap' : SmHeap} {l l' : SmList} {fmts : List (List Char)} {xs : List SmVal}
    (h : smFill heap l fmts xs = (heap', .ok l')) : ∃ buf, l.write fmts xs = .ok buf := by
  unfold smFill at h
  cases hw : l.write fmts xs with
  | error e => rw [hw] at h; cases h
  | ok buf => exact ⟨buf, rfl⟩

theorem smCreate_new_of {avail slack : Nat} {heap heap' : SmHeap} {name : String} {xs : List SmVal} {l : SmList}
    (h : smCreate avail slack heap name xs = (heap', .ok l)) :
    (∀ x ∈ xs, x ≠ .other) ∧ smNew avail slack heap name xs (xs.map fmtT) = (heap', .ok l) := by
  unfold smCreate at h
  cases hf : xs.mapM smFormat with
  | error e => rw [hf] at h; cases h
  | ok fmts =>
    rw [hf] at h
    obtain ⟨hne, rfl⟩ := mapM_smFormat_ok hf
    exact ⟨hne, h⟩

/-- Making a list succeeds only with storable elements, enough memory and a free name. -/
theorem smCreate_inv {avail slack : Nat} {heap heap' : SmHeap} {name : String} {xs : List SmVal} {l : SmList}
    (h : smCreate avail slack heap name xs = (heap', .ok l)) :
    (∀ x ∈ xs, x.Storable) ∧ smBlockSize xs ≤ avail ∧ heap name = none := by
  obtain ⟨hne, h⟩ := smCreate_new_of h
  rw [smNew] at h
  by_cases h1 : (xs.map fmtT).any (fun f => decide (8 < f.length)) = true
  · rw [if_pos h1] at h; cases h
  rw [if_neg h1] at h
  by_cases h2 : avail < smSize (xs.map fmtT)
  · rw [if_pos h2] at h; cases h
  rw [if_neg h2] at h
  by_cases h3 : (heap name).isSome = true
  · rw [if_pos h3] at h; cases h
  rw [if_neg h3] at h
  rw [smSize_fmtT hne] at h2
  refine ⟨?_, not_lt.1 h2, by simpa using h3⟩
  intro x hx
  rw [smStorable_iff]
  refine ⟨hne x hx, ?_, ?_⟩
  · rw [Bool.not_eq_true, List.any_eq_false] at h1
    have := h1 _ (List.mem_map_of_mem hx)
    simpa using this
  · obtain ⟨buf, hw⟩ := smFill_inv h
    obtain ⟨cs, hcs⟩ := write_cells hw
    have hz : (fmtT x, x) ∈ (xs.map fmtT).zip xs := by
      obtain ⟨i, hi, rfl⟩ := List.getElem_of_mem hx
      rw [List.mem_iff_getElem]
      exact ⟨i, by simpa using hi, by simp⟩
    obtain ⟨c, hc⟩ := smMapM_mem hcs _ hz
    exact packCell_error (hne x hx) hc

/-! ### One element -/

theorem made_dataStart (slack : Nat) (name : String) (xs : List SmVal) :
    (smMade slack name xs).dataStart = ((xs.length + 2) * 8 : Int) := rfl

theorem made_formatsStart (slack : Nat) (name : String) (xs : List SmVal) :
    (smMade slack name xs).formatsStart = ((xs.length + 2) * 8 : Int) + smCells xs := by
  show ((xs.length + 2) * 8 : Int) + (((offsT 0 xs).getLastD 0 : Nat) : Int) = _
  rw [offsT_last, Nat.zero_add]

theorem made_codesStart (slack : Nat) (name : String) (xs : List SmVal) :
    (smMade slack name xs).codesStart = ((xs.length + 2) * 8 : Int) + smCells xs + xs.length * 8 := by
  show (smMade slack name xs).formatsStart + _ = _
  rw [made_formatsStart]; rfl

/-- The head of the block. -/
def smHead (xs : List SmVal) : List UInt8 := leBytes 8 xs.length ++ ((offsT 0 xs).map (leBytes 8)).flatten

theorem smHead_length (xs : List SmVal) : (smHead xs).length = (xs.length + 2) * 8 := by
  rw [smHead, List.length_append, leBytes_length, nums_length, offsT_length]; omega

theorem codes_length (xs : List SmVal) : (xs.map smCode).length = xs.length := List.length_map _

theorem smCells_append (a b : List SmVal) : smCells (a ++ b) = smCells a + smCells b := by
  simp [smCells]

/-- The data of one element. -/
theorem block_cell (slack : Nat) (a : List SmVal) (x : SmVal) (b : List SmVal) : ∃ p s,
    smBlock slack (a ++ x :: b) = p ++ cellB x ++ s ∧ p.length = ((a ++ x :: b).length + 2) * 8 + smCells a := by
  refine ⟨smHead (a ++ x :: b) ++ (a.map cellB).flatten, (b.map cellB).flatten ++
    ((a ++ x :: b).map (fun v => textB (fmtT v))).flatten ++ (a ++ x :: b).map smCode ++ List.replicate slack 0, ?_, ?_⟩
  · unfold smBlock smHead
    simp only [List.map_append, List.map_cons, List.flatten_append, List.flatten_cons, List.append_assoc]
  · rw [List.length_append, smHead_length, data_length]

/-- The format of one element. -/
theorem block_text (slack : Nat) (a : List SmVal) (x : SmVal) (b : List SmVal) : ∃ p s,
    smBlock slack (a ++ x :: b) = p ++ textB (fmtT x) ++ s ∧
      p.length = ((a ++ x :: b).length + 2) * 8 + smCells (a ++ x :: b) + a.length * 8 := by
  refine ⟨smHead (a ++ x :: b) ++ ((a ++ x :: b).map cellB).flatten ++ (a.map (fun v => textB (fmtT v))).flatten,
    (b.map (fun v => textB (fmtT v))).flatten ++ (a ++ x :: b).map smCode ++ List.replicate slack 0, ?_, ?_⟩
  · unfold smBlock smHead
    simp only [List.map_append, List.map_cons, List.flatten_append, List.flatten_cons, List.append_assoc]
  · rw [List.length_append, List.length_append, smHead_length, data_length, texts_length]; omega

/-- The code of one element. -/
theorem block_code (slack : Nat) (a : List SmVal) (x : SmVal) (b : List SmVal) : ∃ p s,
    smBlock slack (a ++ x :: b) = p ++ [smCode x] ++ s ∧
      p.length = ((a ++ x :: b).length + 2) * 8 + smCells (a ++ x :: b) + (a ++ x :: b).length * 8 + a.length := by
  refine ⟨smHead (a ++ x :: b) ++ ((a ++ x :: b).map cellB).flatten ++ ((a ++ x :: b).map (fun v => textB (fmtT v))).flatten ++
    a.map smCode, b.map smCode ++ List.replicate slack 0, ?_, ?_⟩
  · unfold smBlock smHead
    simp only [List.map_append, List.map_cons, List.flatten_append, List.flatten_cons, List.append_assoc, List.nil_append,
      List.cons_append]
  · rw [List.length_append, List.length_append, List.length_append, smHead_length, data_length, texts_length, List.length_map]
    omega

/-- What is read for an element. -/
def readBack (x : SmVal) : Except SmErr SmVal :=
  match x with
  | .str s => do pure (.str (← utf8Dec (rstrip0 ((utf8Enc s).take (8 * (s.length / 8 + 1))))))
  | .bytes b => .ok (.bytes (rstrip0 b))
  | v => .ok v

theorem unpack_cell {buf p s : List UInt8} {off : Int} {x : SmVal} (hx : x.Storable) (hb : buf = p ++ cellB x ++ s)
    (ho : off = p.length) : (do backTransform (smCode x) (← unpackItem buf off (fmtK x))) = readBack x := by
  have hat : ∀ n, n = x.cell → bufAt buf off n = .ok (cellB x) := by
    intro n hn
    rw [hb]; exact bufAt_mid _ _ _ _ _ ho (by rw [cellB_length, hn])
  cases x with
  | int n =>
    have : unpackItem buf off .q = .ok (.int n) := by
      unfold unpackItem
      rw [hat 8 rfl]
      show Except.ok (SmVal.int (unpackQ (leBytes 8 (n % 18446744073709551616).toNat))) = _
      rw [unpackQ_packQ hx]
    show (unpackItem buf off .q >>= _) = _
    rw [this]; rfl
  | float bits =>
    have : unpackItem buf off .d = .ok (.float bits) := by
      unfold unpackItem
      rw [hat 8 rfl]
      show Except.ok (SmVal.float (UInt64.ofNat (leNat (leBytes 8 bits.toNat)))) = _
      rw [leNat_leBytes, Nat.mod_eq_of_lt (by have := bits.toNat_lt; omega), UInt64.ofNat_toNat]
    show (unpackItem buf off .d >>= _) = _
    rw [this]; rfl
  | bool b =>
    have : unpackItem buf off .bool = .ok (.bool b) := by
      unfold unpackItem
      rw [hat 8 rfl]
      cases b <;> rfl
    show (unpackItem buf off .bool >>= _) = _
    rw [this]; rfl
  | none =>
    have : ∃ v, unpackItem buf off .none = .ok v := by
      unfold unpackItem
      rw [hat 8 rfl]
      exact ⟨_, rfl⟩
    obtain ⟨v, hv⟩ := this
    show (unpackItem buf off .none >>= _) = _
    rw [hv]; rfl
  | other => exact absurd hx id
  | bytes b =>
    have : unpackItem buf off (.s (8 * (b.length / 8 + 1))) = .ok (.bytes (cellB (.bytes b))) := by
      unfold unpackItem
      dsimp only
      rw [hat (8 * (b.length / 8 + 1)) rfl]; rfl
    show (unpackItem buf off (.s (8 * (b.length / 8 + 1))) >>= _) = _
    rw [this]
    show Except.ok (SmVal.bytes (rstrip0 (cellB (.bytes b)))) = .ok (.bytes (rstrip0 b))
    unfold cellB
    rw [rstrip0_zeros, List.take_of_length_le (by omega)]
  | str s =>
    have : unpackItem buf off (.s (8 * (s.length / 8 + 1))) = .ok (.bytes (cellB (.str s))) := by
      unfold unpackItem
      dsimp only
      rw [hat (8 * (s.length / 8 + 1)) rfl]; rfl
    show (unpackItem buf off (.s (8 * (s.length / 8 + 1))) >>= _) = _
    rw [this]
    show (utf8Dec (rstrip0 (cellB (.str s))) >>= fun s => Except.ok (SmVal.str s)) = _
    unfold cellB
    rw [rstrip0_zeros]; rfl

theorem made_wrap {slack : Nat} {name : String} {xs : List SmVal} {i : Int} :
    (smMade slack name xs).wrap i = if 0 ≤ i then i else i + xs.length := rfl

theorem made_format {slack : Nat} {name : String} {a : List SmVal} {x : SmVal} {b : List SmVal} (hx : x.Storable) {i : Int}
    (hi : (smMade slack name (a ++ x :: b)).wrap i = a.length) :
    (smMade slack name (a ++ x :: b)).format i = .ok (fmtT x) := by
  obtain ⟨p, s, hb, hp⟩ := block_text slack a x b
  have hst := (smStorable_iff x).1 hx
  unfold SmList.format
  rw [hi, if_neg (by show ¬ ((((a ++ x :: b).length : Nat) : Int) ≤ a.length); simp)]
  have : bufAt (smMade slack name (a ++ x :: b)).buf
      ((smMade slack name (a ++ x :: b)).formatsStart + (a.length : Int) * 8) 8 = .ok (textB (fmtT x)) := by
    show bufAt (smBlock slack (a ++ x :: b)) _ _ = _
    rw [hb]
    refine bufAt_mid _ _ _ _ _ ?_ (textB_length _).symm
    rw [made_formatsStart, hp]; push_cast; ring
  rw [this]
  exact format_back hst.1 hst.2.1

theorem made_code {slack : Nat} {name : String} {a : List SmVal} {x : SmVal} {b : List SmVal} :
    (smMade slack name (a ++ x :: b)).code a.length = .ok (smCode x) := by
  obtain ⟨p, s, hb, hp⟩ := block_code slack a x b
  unfold SmList.code
  rw [if_neg (by show ¬ ((((a ++ x :: b).length : Nat) : Int) ≤ a.length); simp)]
  have : bufAt (smMade slack name (a ++ x :: b)).buf ((smMade slack name (a ++ x :: b)).codesStart + (a.length : Int)) 1 =
      .ok [smCode x] := by
    show bufAt (smBlock slack (a ++ x :: b)) _ _ = _
    rw [hb]
    refine bufAt_mid _ _ _ _ _ ?_ rfl
    rw [made_codesStart, hp]; push_cast; ring
  rw [this]; rfl

theorem smBind_ok {x : Except ε α} {a : α} {f : α → Except ε β} (h : x = .ok a) : (x >>= f) = f a := by rw [h]; rfl

/-- The steps of reading a position. -/
theorem readAt_eq {l : SmList} {pos : Int} {off : Nat} {t : List Char} {fmt : SmFmt} {c : UInt8}
    (ho : pyIndex l.offsets pos = .ok off) (ht : l.format pos = .ok t) (hf : parseFmt t = .ok fmt) (hc : l.code pos = .ok c) :
    l.readAt pos = (unpackItem l.buf (l.dataStart + off) fmt >>= fun v => backTransform c v) := by
  unfold SmList.readAt
  rw [smBind_ok ho, smBind_ok ht, smBind_ok hf]
  congr 1
  funext v
  exact smBind_ok hc

/-- Reading an element by an index in range. -/
theorem made_getitem {slack : Nat} {name : String} {a : List SmVal} {x : SmVal} {b : List SmVal} (hx : x.Storable) {i : Int}
    (hi : (smMade slack name (a ++ x :: b)).wrap i = a.length) :
    (smMade slack name (a ++ x :: b)).getitem i = readBack x := by
  obtain ⟨p, s, hb, hp⟩ := block_cell slack a x b
  have ho : pyIndex (smMade slack name (a ++ x :: b)).offsets (a.length : Int) = .ok (smCells a) := by
    show pyIndex (offsT 0 (a ++ x :: b)) _ = _
    unfold pyIndex
    rw [if_pos (by omega), Int.toNat_natCast, offsT_getElem?, Nat.zero_add]
  have hst := (smStorable_iff x).1 hx
  have hw : (smMade slack name (a ++ x :: b)).wrap a.length = a.length := by rw [made_wrap, if_pos (by omega)]
  unfold SmList.getitem
  rw [hi, readAt_eq ho (made_format hx hw) (parseFmt_fmtT hst.1) made_code]
  exact unpack_cell hx hb (by rw [made_dataStart, hp]; push_cast; ring)

/-- An index that is too large. -/
theorem made_getitem_high {slack : Nat} {name : String} {xs : List SmVal} {i : Int} (hi : (xs.length : Int) ≤ i) :
    (smMade slack name xs).getitem i = .error .indexError := by
  have hw : (smMade slack name xs).wrap i = i := by rw [made_wrap, if_pos (by omega)]
  unfold SmList.getitem SmList.readAt
  rw [hw]
  cases ho : pyIndex (smMade slack name xs).offsets i with
  | error e =>
    unfold pyIndex at ho
    rw [if_pos (by omega)] at ho
    split at ho
    · cases ho
    · cases ho; rfl
  | ok o =>
    have : (smMade slack name xs).format i = .error .indexError := by
      unfold SmList.format
      rw [hw]
      exact if_pos hi
    rw [smBind_ok rfl, this]; rfl

/-! ### Attaching -/

theorem nums_at (ns : List Nat) (i : Nat) (hi : i < ns.length) : (((ns.map (leBytes 8)).flatten.drop (8 * i)).take 8) = leBytes 8 ns[i] := by
  induction ns generalizing i with
  | nil => cases hi
  | cons n ns ih =>
    cases i with
    | zero =>
      simp only [List.map_cons, List.flatten_cons, Nat.mul_zero, List.drop_zero, List.getElem_cons_zero]
      rw [List.take_append_of_le_length (by rw [leBytes_length]), List.take_of_length_le (by rw [leBytes_length])]
    | succ i =>
      simp only [List.map_cons, List.flatten_cons, List.getElem_cons_succ]
      have : (leBytes 8 n ++ (ns.map (leBytes 8)).flatten).drop (8 * (i + 1)) = (ns.map (leBytes 8)).flatten.drop (8 * i) := by
        rw [List.drop_append, leBytes_length, List.drop_of_length_le (by rw [leBytes_length]; omega), List.nil_append]
        congr 1
      rw [this]
      exact ih i _

theorem attach_made {slack : Nat} {heap : SmHeap} {name : String} {xs : List SmVal}
    (hb : smBlockSize xs < 9223372036854775808) (hh : heap name = some (smBlock slack xs)) :
    smAttach heap name = .ok (smMade slack name xs) := by
  have hlen : xs.length < 9223372036854775808 := lt_of_le_of_lt (by unfold smBlockSize; omega) hb
  have hoff : ∀ o ∈ offsT 0 xs, o < 9223372036854775808 := fun o ho =>
    lt_of_le_of_lt (le_trans (offsT_le 0 xs o ho) (by unfold smBlockSize; omega)) hb
  obtain ⟨tail, htail⟩ : ∃ tail, smBlock slack xs = leBytes 8 xs.length ++ ((offsT 0 xs).map (leBytes 8)).flatten ++ tail :=
    ⟨(xs.map cellB).flatten ++ (xs.map (fun v => textB (fmtT v))).flatten ++ xs.map smCode ++ List.replicate slack 0, by
      unfold smBlock; simp only [List.append_assoc]⟩
  have h1 : bufAt (smBlock slack xs) 0 8 = .ok (leBytes 8 xs.length) := by
    rw [htail, List.append_assoc]
    exact bufAt_mid [] (leBytes 8 xs.length) _ 0 8 rfl (by rw [leBytes_length])
  have h2 : bufAt (smBlock slack xs) 8 (8 * (xs.length + 1)) = .ok ((offsT 0 xs).map (leBytes 8)).flatten := by
    rw [htail]
    exact bufAt_mid _ _ _ _ _ (by rw [leBytes_length]; rfl) (by rw [nums_length, offsT_length])
  have e : (unpackQ (leBytes 8 xs.length) + 1).toNat = xs.length + 1 := by rw [unpackQ_nat hlen]; omega
  have h3 : (List.range (xs.length + 1)).map
      (fun i => (unpackQ ((((offsT 0 xs).map (leBytes 8)).flatten.drop (8 * i)).take 8)).toNat) = offsT 0 xs := by
    apply List.ext_getElem
    · rw [List.length_map, List.length_range, offsT_length]
    · intro i h h'
      rw [List.getElem_map, List.getElem_range, nums_at _ _ h', unpackQ_nat (hoff _ (List.getElem_mem h')), Int.toNat_natCast]
  have ho : smOpen name (smBlock slack xs) = .ok (smMade slack name xs) := by
    unfold smOpen
    rw [smBind_ok h1, e, smBind_ok h2, h3, unpackQ_nat hlen]; rfl
  unfold smAttach
  rw [hh, ← ho]

theorem made_size {slack : Nat} {name : String} {xs : List SmVal} (hb : smBlockSize xs < 9223372036854775808) :
    (smMade slack name xs).size = .ok (xs.length : Int) := by
  have hlen : xs.length < 9223372036854775808 := lt_of_le_of_lt (by unfold smBlockSize; omega) hb
  have h1 : bufAt (smBlock slack xs) 0 8 = .ok (leBytes 8 xs.length) := by
    unfold smBlock
    simp only [List.append_assoc]
    exact bufAt_mid [] (leBytes 8 xs.length) _ 0 8 rfl (by rw [leBytes_length])
  unfold SmList.size
  rw [smBind_ok (show bufAt (smMade slack name xs).buf 0 8 = _ from h1), unpackQ_nat hlen]; rfl

end Grain
