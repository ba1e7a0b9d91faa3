import Verif.SharedSource.Reads
/-
C94: a `SharedMemoryDataSource` returns the elements it was given, in this process and in every process it is sent to.
-/
namespace Grain

theorem readBack_iff {x : SmVal} : readBack x = .ok x ↔ x.Intact := by
  cases x with
  | bytes b =>
    show Except.ok (SmVal.bytes (rstrip0 b)) = .ok (.bytes b) ↔ _
    rw [SmVal.Intact, ← rstrip0_eq]
    constructor
    · intro h; injection h with h; injection h
    · intro h; rw [h]
  | str s =>
    have key : readBack (.str s) = .ok (.str s) ↔ utf8Dec (rstrip0 ((utf8Enc s).take (8 * (s.length / 8 + 1)))) = .ok s := by
      show (utf8Dec (rstrip0 ((utf8Enc s).take (8 * (s.length / 8 + 1)))) >>= fun s => Except.ok (SmVal.str s)) = _ ↔ _
      cases utf8Dec (rstrip0 ((utf8Enc s).take (8 * (s.length / 8 + 1)))) with
      | error e => constructor <;> intro h <;> cases h
      | ok t =>
        constructor
        · intro h; injection h with h; injection h with h; rw [h]
        · intro h; injection h with h; rw [h]; rfl
    rw [key, SmVal.Intact]
    constructor
    · intro h
      have h2 := utf8Enc_of_utf8Dec h
      have hl : (rstrip0 ((utf8Enc s).take (8 * (s.length / 8 + 1)))).length ≤ ((utf8Enc s).take (8 * (s.length / 8 + 1))).length := by
        unfold rstrip0
        rw [List.length_reverse]
        exact le_trans (List.dropWhile_sublist _).length_le (by rw [List.length_reverse])
      rw [← h2] at hl
      have hfit : utf8Size s ≤ 8 * (s.length / 8 + 1) := by
        rw [List.length_take, utf8Enc_length] at hl; omega
      refine ⟨?_, hfit⟩
      rw [List.take_of_length_le (by rw [utf8Enc_length]; exact hfit)] at h2
      have := rstrip0_eq.1 h2.symm
      rwa [Ne, utf8Enc_getLast] at this
    · rintro ⟨h1, h2⟩
      rw [List.take_of_length_le (by rw [utf8Enc_length]; exact h2), rstrip0_eq.2 (by rwa [Ne, utf8Enc_getLast]), utf8Dec_utf8Enc]
  | _ => exact ⟨fun _ => trivial, fun _ => rfl⟩

theorem sharedSource_create {avail slack : Nat} {fresh : String} {heap : SmHeap} {xs : List SmVal} {name : Option String} :
    sharedSource avail slack fresh heap (some xs) name = smCreate avail slack heap (name.getD fresh) xs := by
  cases name <;> rfl

/-- C94, which sources can be made: exactly those of elements that can be stored, when there is enough memory and the name is not
taken. -/
theorem shared_source_made_iff {avail slack : Nat} (ha : avail < 9223372036854775808) {fresh : String} {heap : SmHeap}
    {xs : List SmVal} {name : Option String} :
    (∃ heap' l, sharedSource avail slack fresh heap (some xs) name = (heap', .ok l)) ↔
      (∀ x ∈ xs, x.Storable) ∧ 16 + 17 * xs.length + (xs.map SmVal.cell).sum ≤ avail ∧ heap (name.getD fresh) = none := by
  have hsz : smBlockSize xs = 16 + 17 * xs.length + (xs.map SmVal.cell).sum := by unfold smBlockSize smCells; omega
  rw [sharedSource_create, ← hsz]
  constructor
  · rintro ⟨heap', l, h⟩; exact smCreate_inv h
  · rintro ⟨h1, h2, h3⟩; exact ⟨_, _, smCreate_ok ha h1 h2 h3⟩

theorem made_of_create {avail slack : Nat} (ha : avail < 9223372036854775808) {fresh : String} {heap heap' : SmHeap}
    {xs : List SmVal} {name : Option String} {l : SmList}
    (h : sharedSource avail slack fresh heap (some xs) name = (heap', .ok l)) :
    (∀ x ∈ xs, x.Storable) ∧ smBlockSize xs < 9223372036854775808 ∧ l = smMade slack (name.getD fresh) xs ∧
      heap' (name.getD fresh) = some (smBlock slack xs) := by
  rw [sharedSource_create] at h
  obtain ⟨h1, h2, h3⟩ := smCreate_inv h
  rw [smCreate_ok ha h1 h2 h3] at h
  injection h with h4 h5
  injection h5 with h5
  exact ⟨h1, lt_of_le_of_lt h2 ha, h5.symm, by rw [← h4, Function.update_self]⟩

theorem made_getitem_pyGet {slack : Nat} {name : String} {xs : List SmVal} (hs : ∀ x ∈ xs, x.Storable) {i : Int} {x : SmVal}
    (h : pyGet xs i = some x) : (smMade slack name xs).getitem i = readBack x := by
  have key : ∀ j : Nat, xs[j]? = some x → (smMade slack name xs).wrap i = j → (smMade slack name xs).getitem i = readBack x := by
    intro j hj hw
    obtain ⟨hlt, rfl⟩ := List.getElem?_eq_some_iff.1 hj
    have e : xs = xs.take j ++ xs[j] :: xs.drop (j + 1) := by
      rw [← List.drop_eq_getElem_cons hlt, List.take_append_drop]
    have hl : (xs.take j).length = j := by rw [List.length_take]; omega
    have hx := hs _ (List.getElem_mem hlt)
    generalize xs[j] = x at e hx ⊢
    generalize hA : xs.take j = A at e hl
    generalize xs.drop (j + 1) = B at e
    subst e
    exact made_getitem hx (by rw [hw, hl])
  unfold pyGet at h
  split at h
  · rename_i h0
    exact key _ h (by rw [made_wrap, if_pos h0]; omega)
  · rename_i h0
    split at h
    · rename_i h1
      exact key _ h (by rw [made_wrap, if_neg h0]; omega)
    · cases h

/-- C94: the source has as many elements as it was given.  Reading with an index in range (also a negative one) returns the
element given exactly when the element is intact: bytes and strings must not end in zeros and strings must not need more bytes
than are reserved.  Too large an index raises `IndexError`.  The same holds in every process that attaches to the source by its
name, or gets it by pickling, as long as the block exists. -/
theorem shared_source_reads_partial {avail slack : Nat} (ha : avail < 9223372036854775808) {fresh : String} {heap heap' : SmHeap}
    {xs : List SmVal} {name : Option String} {l : SmList}
    (h : sharedSource avail slack fresh heap (some xs) name = (heap', .ok l)) :
    l.size = .ok (xs.length : Int) ∧
      (∀ i x, pyGet xs i = some x → (l.getitem i = .ok x ↔ x.Intact)) ∧
      (∀ i, (xs.length : Int) ≤ i → l.getitem i = .error .indexError) ∧
      ∀ avail' slack' fresh' heap'', heap'' l.name = heap' l.name →
        sharedSource avail' slack' fresh' heap'' none (some l.name) = (heap'', .ok l) := by
  obtain ⟨h1, h2, rfl, h4⟩ := made_of_create ha h
  refine ⟨made_size h2, ?_, fun i hi => made_getitem_high hi, ?_⟩
  · intro i x hx
    rw [made_getitem_pyGet h1 hx]
    exact readBack_iff
  · intro avail' slack' fresh' heap'' hh
    have : smAttach heap'' (name.getD fresh) = .ok (smMade slack (name.getD fresh) xs) :=
      attach_made h2 (by rw [← h4]; exact hh)
    show (heap'', smAttach heap'' (name.getD fresh)) = _
    rw [this]

/-- C94, exactly what is lost: bytes come back without the zeros at their end. -/
theorem shared_source_bytes {avail slack : Nat} (ha : avail < 9223372036854775808) {fresh : String} {heap heap' : SmHeap}
    {xs : List SmVal} {name : Option String} {l : SmList}
    (h : sharedSource avail slack fresh heap (some xs) name = (heap', .ok l)) {i : Int} {b : List UInt8} {k : Nat}
    (hb : b.getLast? ≠ some 0) (hx : pyGet xs i = some (.bytes (b ++ List.replicate k 0))) : l.getitem i = .ok (.bytes b) := by
  obtain ⟨h1, _, rfl, _⟩ := made_of_create ha h
  rw [made_getitem_pyGet h1 hx]
  show Except.ok (SmVal.bytes (rstrip0 (b ++ List.replicate k 0))) = _
  rw [rstrip0_zeros, rstrip0_eq.2 hb]

/-- No source without elements and without a name. -/
theorem shared_source_needs_name {avail slack : Nat} {fresh : String} {heap : SmHeap} :
    sharedSource avail slack fresh heap none none = (heap, .error .valueError) := rfl

/-- Elements of all kinds. -/
def someElements : List SmVal :=
  [.int (-5), .float 4607182418800017408, .bool true, .none, .str ['h', 'é', 'l', 'l', 'o'], .bytes [0, 1, 0, 255], .str [], .int 7]

/-- Nothing exists yet. -/
def noBlocks : SmHeap := fun _ => none

/-- The hypotheses are met, with elements that are all intact. -/
example : (∃ heap' l, sharedSource 1000 0 "psm_1" noBlocks (some someElements) none = (heap', .ok l)) ∧
    ∀ x ∈ someElements, x.Intact := by
  constructor
  · rw [shared_source_made_iff (by decide)]
    refine ⟨?_, by decide, rfl⟩
    simp [someElements, SmVal.Storable]
  · simp only [someElements, List.forall_mem_cons, SmVal.Intact]
    refine ⟨trivial, trivial, trivial, trivial, by decide, by decide, by decide, trivial, fun x hx => by cases hx⟩

/-! ### What goes wrong -/

/-- Finding F104: zeros at the end of bytes are lost without any notice (`b"a\x00"` comes back as `b"a"`). -/
theorem shared_source_loses_zeros : ∃ heap' l,
    sharedSource 1000 0 "psm_1" noBlocks (some [.bytes [97, 0]]) none = (heap', .ok l) ∧ l.getitem 0 = .ok (.bytes [97]) := by
  obtain ⟨heap', l, h⟩ := (shared_source_made_iff (avail := 1000) (slack := 0) (fresh := "psm_1") (heap := noBlocks)
    (xs := [.bytes [97, 0]]) (name := none) (by decide)).2 ⟨by simp [SmVal.Storable], by decide, rfl⟩
  exact ⟨heap', l, h, shared_source_bytes (by decide) h (k := 1) (by decide) rfl⟩

/-- Finding F105: the bytes reserved for a string are counted in characters, so a string with characters outside ASCII is cut off
without any notice: seven times `é` comes back as four times `é`. -/
theorem shared_source_cuts_strings : ∃ heap' l,
    sharedSource 1000 0 "psm_1" noBlocks (some [.str (List.replicate 7 'é')]) none = (heap', .ok l) ∧
      l.getitem 0 = .ok (.str (List.replicate 4 'é')) := by
  obtain ⟨heap', l, h⟩ := (shared_source_made_iff (avail := 1000) (slack := 0) (fresh := "psm_1") (heap := noBlocks)
    (xs := [.str (List.replicate 7 'é')]) (name := none) (by decide)).2 ⟨by simp [SmVal.Storable], by decide, rfl⟩
  refine ⟨heap', l, h, ?_⟩
  obtain ⟨h1, _, rfl, _⟩ := made_of_create (by decide) h
  rw [made_getitem_pyGet h1 (x := .str (List.replicate 7 'é')) rfl]
  have e : rstrip0 ((utf8Enc (List.replicate 7 'é')).take (8 * ((List.replicate 7 'é').length / 8 + 1))) =
      utf8Enc (List.replicate 4 'é') := by decide
  show (utf8Dec (rstrip0 ((utf8Enc (List.replicate 7 'é')).take (8 * ((List.replicate 7 'é').length / 8 + 1)))) >>= _) = _
  rw [e, utf8Dec_utf8Enc]; rfl

theorem block_ints (slack : Nat) (ns : List Int) (n : Int) : ∃ p s,
    smBlock slack ((n :: ns).map SmVal.int) = p ++ textB ['q'] ++ s ∧
      p.length = ((n :: ns).length + 2) * 8 + smCells ((n :: ns).map SmVal.int) := by
  obtain ⟨p, s, h1, h2⟩ := block_text slack [] (.int n) (ns.map SmVal.int)
  exact ⟨p, s, h1, by simpa using h2⟩

/-- Finding F106: an index below the range is not rejected: for every non-empty source of integers, the index just below the
range returns the number 113 (the code of the letter `q` in the table of formats). -/
theorem shared_source_negative_index {avail slack : Nat} (ha : avail < 9223372036854775808) {fresh : String} {heap heap' : SmHeap}
    {ns : List Int} (hn : ns ≠ []) {name : Option String} {l : SmList}
    (h : sharedSource avail slack fresh heap (some (ns.map SmVal.int)) name = (heap', .ok l)) :
    l.getitem (-ns.length - 1) = .ok (.int 113) := by
  obtain ⟨h1, _, rfl, _⟩ := made_of_create ha h
  obtain ⟨m, ms, rfl⟩ := List.exists_cons_of_ne_nil hn
  obtain ⟨a, z, hz⟩ : ∃ a z, m :: ms = a ++ [z] := by
    rcases List.eq_nil_or_concat (m :: ms) with h | ⟨a, z, h⟩
    · cases h
    · exact ⟨a, z, by simpa using h⟩
  have hxs : (m :: ms).map SmVal.int = a.map SmVal.int ++ SmVal.int z :: [] := by rw [hz]; simp
  have hlen : (m :: ms).length = a.length + 1 := by rw [hz]; simp
  have hst : (SmVal.int z).Storable := h1 _ (by rw [hxs]; simp)
  have hw : (smMade slack (name.getD fresh) ((m :: ms).map SmVal.int)).wrap (-(m :: ms).length - 1) = -1 := by
    rw [made_wrap, if_neg (by omega), List.length_map]; omega
  have ho : pyIndex (smMade slack (name.getD fresh) ((m :: ms).map SmVal.int)).offsets (-1) = .ok (smCells ((m :: ms).map SmVal.int)) := by
    show pyIndex (offsT 0 ((m :: ms).map SmVal.int)) (-1) = _
    have hl := offsT_length 0 ((m :: ms).map SmVal.int)
    unfold pyIndex
    rw [if_neg (by omega), if_pos (by rw [hl]; omega)]
    have hg := offsT_getElem? 0 ((m :: ms).map SmVal.int) []
    rw [List.append_nil, Nat.zero_add] at hg
    have : (-1 + ((offsT 0 ((m :: ms).map SmVal.int)).length : Int)).toNat = ((m :: ms).map SmVal.int).length := by
      rw [hl]; omega
    rw [this, hg]
  have hf : (smMade slack (name.getD fresh) ((m :: ms).map SmVal.int)).format (-1) = .ok ['q'] := by
    rw [hxs]
    refine made_format hst ?_
    rw [made_wrap, if_neg (by omega)]
    simp
  have hc : (smMade slack (name.getD fresh) ((m :: ms).map SmVal.int)).code (-1) = .ok 0 := by
    obtain ⟨p, s, hb, hp⟩ := block_text slack (a.map SmVal.int) (.int z) []
    rw [← hxs] at hb hp
    have e : textB (fmtT (.int z)) = [113, 0, 0, 0, 0, 0, 0] ++ [0] := show textB ['q'] = _ by decide
    unfold SmList.code
    rw [if_neg (by show ¬ ((((m :: ms).map SmVal.int).length : Nat) : Int) ≤ -1; omega)]
    have : bufAt (smMade slack (name.getD fresh) ((m :: ms).map SmVal.int)).buf
        ((smMade slack (name.getD fresh) ((m :: ms).map SmVal.int)).codesStart + -1) 1 = .ok [0] := by
      show bufAt (smBlock slack ((m :: ms).map SmVal.int)) _ _ = _
      rw [hb, e, ← List.append_assoc p]
      refine bufAt_mid _ _ _ _ _ ?_ rfl
      rw [made_codesStart, List.length_append, hp, List.length_map, List.length_map, hlen]
      simp only [List.length_cons, List.length_nil]; push_cast; ring
    rw [this]; rfl
  unfold SmList.getitem
  rw [hw, readAt_eq (fmt := .q) ho hf rfl hc]
  obtain ⟨p, s, hb, hp⟩ := block_ints slack ms m
  have hu : bufAt (smMade slack (name.getD fresh) ((m :: ms).map SmVal.int)).buf
      ((smMade slack (name.getD fresh) ((m :: ms).map SmVal.int)).dataStart + (smCells ((m :: ms).map SmVal.int) : Nat)) 8 =
      .ok (textB ['q']) := by
    show bufAt (smBlock slack ((m :: ms).map SmVal.int)) _ _ = _
    rw [hb]
    refine bufAt_mid _ _ _ _ _ ?_ (textB_length _).symm
    rw [made_dataStart, hp, List.length_map]; push_cast; ring
  unfold unpackItem
  rw [hu]
  have : textB ['q'] = [113, 0, 0, 0, 0, 0, 0, 0] := by decide
  rw [this]
  rfl

/-- The hypotheses are met. -/
example : ∃ heap' l, sharedSource 1000 0 "psm_1" noBlocks (some ([1, 2, 3].map SmVal.int)) none = (heap', .ok l) :=
  (shared_source_made_iff (by decide)).2 ⟨by simp [SmVal.Storable], by decide, rfl⟩

end Grain
