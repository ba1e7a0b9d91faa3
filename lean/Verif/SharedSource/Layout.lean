import Verif.SharedSource.Lemmas
/-
Lemmas for C94: what is in the block after a list has been made.
-/
namespace Grain

/-! ### One element -/

/-- The format of an element. -/
def fmtT : SmVal → List Char
  | .int _ => ['q']
  | .float _ => ['d']
  | .bool _ => ['x', 'x', 'x', 'x', 'x', 'x', 'x', '?']
  | .str s => Nat.toDigits 10 (8 * (s.length / 8 + 1)) ++ ['s']
  | .bytes b => Nat.toDigits 10 (8 * (b.length / 8 + 1)) ++ ['s']
  | .none => ['x', 'x', 'x', 'x', 'x', 'x', '?', 'x']
  | .other => []

/-- The same, as `struct` reads it. -/
def fmtK : SmVal → SmFmt
  | .int _ => .q
  | .float _ => .d
  | .bool _ => .bool
  | .str s => .s (8 * (s.length / 8 + 1))
  | .bytes b => .s (8 * (b.length / 8 + 1))
  | _ => .none

/-- The bytes of an element in the data area. -/
def cellB : SmVal → List UInt8
  | .int n => leBytes 8 (n % 18446744073709551616).toNat
  | .float bits => leBytes 8 bits.toNat
  | .bool b => List.replicate 7 0 ++ [if b then 1 else 0]
  | .str s => (utf8Enc s).take (8 * (s.length / 8 + 1)) ++ List.replicate (8 * (s.length / 8 + 1) - (utf8Enc s).length) 0
  | .bytes b => b.take (8 * (b.length / 8 + 1)) ++ List.replicate (8 * (b.length / 8 + 1) - b.length) 0
  | _ => List.replicate 8 0

/-- The bytes of its format. -/
def textB (f : List Char) : List UInt8 := (utf8Enc f).take 8 ++ List.replicate (8 - (utf8Enc f).length) 0

theorem cellB_length (v : SmVal) : (cellB v).length = v.cell := by
  cases v <;> simp only [cellB, SmVal.cell, leBytes_length, List.length_append, List.length_replicate, List.length_take,
    List.length_cons, List.length_nil] <;> omega

theorem textB_length (f : List Char) : (textB f).length = 8 := by
  simp only [textB, List.length_append, List.length_replicate, List.length_take]; omega

theorem smFormat_ok {v : SmVal} (h : v ≠ .other) : smFormat v = .ok (fmtT v) := by
  cases v <;> first | rfl | exact absurd rfl h

theorem smWidth_digits (m : Nat) : smWidth (Nat.toDigits 10 m ++ ['s']) = m := by
  unfold smWidth
  rw [if_neg (by simp), List.dropLast_concat, Nat.ofDigitChars_ten_toDigits]

theorem smWidth_fmtT {v : SmVal} (h : v ≠ .other) : smWidth (fmtT v) = v.cell := by
  cases v
  case str s => exact smWidth_digits _
  case bytes b => exact smWidth_digits _
  case other => exact absurd rfl h
  all_goals rfl

theorem parseFmt_digits (m : Nat) : parseFmt (Nat.toDigits 10 m ++ ['s']) = .ok (.s m) := by
  have hl : ∀ t : List Char, t.getLast? ≠ some 's' → Nat.toDigits 10 m ++ ['s'] ≠ t := by
    intro t ht h
    rw [← h] at ht; exact ht (by simp)
  unfold parseFmt
  rw [if_neg (hl _ (by decide)), if_neg (hl _ (by decide)), if_neg (hl _ (by decide)), if_neg (hl _ (by decide)), if_pos]
  · rw [List.dropLast_concat, Nat.ofDigitChars_ten_toDigits]
  · refine ⟨by simp, ?_, ?_⟩
    · rw [List.dropLast_concat]; exact Nat.toDigits_ne_nil
    · rw [List.dropLast_concat, List.all_eq_true]
      exact fun c hc => Nat.isDigit_of_mem_toDigits (by decide) (by decide) hc

theorem parseFmt_fmtT {v : SmVal} (h : v ≠ .other) : parseFmt (fmtT v) = .ok (fmtK v) := by
  cases v
  case str s => exact parseFmt_digits _
  case bytes b => exact parseFmt_digits _
  case other => exact absurd rfl h
  all_goals rfl

theorem utf8Size_digits {t : List Char} (h : ∀ c ∈ t, c.isDigit = true) : utf8Size t = t.length := by
  induction t with
  | nil => rfl
  | cons c t ih =>
    have hc : c.utf8Size = 1 := by
      have := h c List.mem_cons_self
      simp only [Char.isDigit, Bool.and_eq_true, decide_eq_true_eq] at this
      have h2 : c.val ≤ 127 := UInt32.le_trans this.2 (by decide)
      simp [Char.utf8Size, h2]
    have := ih (fun d hd => h d (List.mem_cons_of_mem _ hd))
    simp only [utf8Size, List.map_cons, List.sum_cons, List.length_cons, hc] at this ⊢
    omega

theorem fmtT_utf8 (v : SmVal) : (utf8Enc (fmtT v)).length = (fmtT v).length := by
  have key : ∀ m, (utf8Enc (Nat.toDigits 10 m ++ ['s'])).length = (Nat.toDigits 10 m ++ ['s']).length := by
    intro m
    rw [utf8Enc_length]
    have := utf8Size_digits (t := Nat.toDigits 10 m) (fun c hc => Nat.isDigit_of_mem_toDigits (by decide) (by decide) hc)
    simp only [utf8Size, List.map_append, List.sum_append, List.length_append] at this ⊢
    rw [this]; rfl
  cases v
  case str s => exact key _
  case bytes b => exact key _
  all_goals rfl

/-- Which formats fit in eight characters. -/
theorem fmtT_short {v : SmVal} : (fmtT v).length ≤ 8 ↔
    (∀ s, v = .str s → s.length < 9999992) ∧ (∀ b, v = .bytes b → b.length < 9999992) := by
  have key : ∀ n, (Nat.toDigits 10 (8 * (n / 8 + 1)) ++ ['s']).length ≤ 8 ↔ n < 9999992 := by
    intro n
    have := Nat.length_toDigits_le_iff (b := 10) (n := 8 * (n / 8 + 1)) (k := 7) (by decide) (by decide)
    rw [List.length_append]
    simp only [List.length_cons, List.length_nil]
    constructor
    · intro h; have := this.1 (by omega); omega
    · intro h; have := this.2 (by omega); omega
  cases v
  case str s => simpa [fmtT] using key s.length
  case bytes b => simpa [fmtT] using key b.length
  all_goals simp [fmtT]

theorem fmtT_last {v : SmVal} (h : v ≠ .other) : (utf8Enc (fmtT v)).getLast? ≠ some 0 := by
  rw [Ne, utf8Enc_getLast]
  cases v
  case str s => simp [fmtT]
  case bytes b => simp [fmtT]
  case other => exact absurd rfl h
  all_goals (simp only [fmtT]; decide)

/-- A format is read back. -/
theorem format_back {v : SmVal} (h : v ≠ .other) (hs : (fmtT v).length ≤ 8) :
    utf8Dec (rstrip0 (textB (fmtT v))) = .ok (fmtT v) := by
  unfold textB
  rw [rstrip0_zeros, List.take_of_length_le (by rw [fmtT_utf8]; exact hs), rstrip0_eq.2 (fmtT_last h), utf8Dec_utf8Enc]

theorem packCell_ok {v : SmVal} (h : v.Storable) : packCell (fmtT v) v = .ok (cellB v) := by
  have hne : v ≠ .other := by rintro rfl; exact h
  unfold packCell
  rw [parseFmt_fmtT hne]
  cases v
  case int n => exact if_pos h
  case other => exact absurd rfl hne
  all_goals rfl

theorem packCell_error {v : SmVal} (hne : v ≠ .other) {c : List UInt8} (h : packCell (fmtT v) v = .ok c) :
    ∀ n, v = .int n → -9223372036854775808 ≤ n ∧ n < 9223372036854775808 := by
  rintro n rfl
  by_contra hn
  have : packCell (fmtT (.int n)) (.int n) = packQ n := rfl
  rw [this] at h
  unfold packQ at h
  rw [if_neg hn] at h
  cases h

/-! ### Lists -/

theorem smMapM_ok {f : α → Except ε β} {g : α → β} {xs : List α} (h : ∀ x ∈ xs, f x = .ok (g x)) :
    xs.mapM f = .ok (xs.map g) := by
  induction xs with
  | nil => rfl
  | cons x xs ih =>
    rw [List.mapM_cons, h x List.mem_cons_self, ih (fun y hy => h y (List.mem_cons_of_mem _ hy))]; rfl

theorem smMapM_mem {f : α → Except ε β} {xs : List α} {ys : List β} (h : xs.mapM f = .ok ys) :
    ∀ x ∈ xs, ∃ y, f x = .ok y := by
  induction xs generalizing ys with
  | nil => intro x hx; cases hx
  | cons x xs ih =>
    rw [List.mapM_cons] at h
    cases hx : f x with
    | error e => rw [hx] at h; cases h
    | ok y =>
      rw [hx] at h
      cases hxs : xs.mapM f with
      | error e => rw [hxs] at h; cases h
      | ok zs =>
        intro z hz
        rcases List.mem_cons.1 hz with rfl | hz
        · exact ⟨y, hx⟩
        · exact ih hxs z hz

theorem packInto_mid (a b c bs : List UInt8) (off : Nat) (ho : off = a.length) (hb : bs.length = b.length) :
    packInto (a ++ b ++ c) off bs = .ok (a ++ bs ++ c) := by
  subst ho
  unfold packInto
  rw [if_pos (by simp; omega), hb]
  congr 1
  rw [List.append_assoc a b c, List.take_left, ← List.append_assoc a b c,
    show a.length + b.length = (a ++ b).length by simp, List.drop_left]

theorem bufAt_mid (a b c : List UInt8) (off : Int) (n : Nat) (ho : off = a.length) (hn : n = b.length) :
    bufAt (a ++ b ++ c) off n = .ok b := by
  subst ho; subst hn
  unfold bufAt
  rw [if_pos (by simp)]
  simp [List.append_assoc]

/-- The number of bytes reserved for all elements. -/
def smCells (xs : List SmVal) : Nat := (xs.map SmVal.cell).sum

/-- The offsets, from `off`. -/
def offsT (off : Nat) : List SmVal → List Nat
  | [] => [off]
  | x :: xs => off :: offsT (off + x.cell) xs

theorem smOffsets_map {xs : List SmVal} (h : ∀ x ∈ xs, x ≠ .other) (off : Nat) :
    smOffsets off (xs.map fmtT) = offsT off xs := by
  induction xs generalizing off with
  | nil => rfl
  | cons x xs ih =>
    rw [List.map_cons, smOffsets, offsT, smWidth_fmtT (h x List.mem_cons_self), ih (fun y hy => h y (List.mem_cons_of_mem _ hy))]

theorem offsT_length (off : Nat) (xs : List SmVal) : (offsT off xs).length = xs.length + 1 := by
  induction xs generalizing off with
  | nil => rfl
  | cons x xs ih => rw [offsT, List.length_cons, ih]; rfl

theorem offsT_getElem? (off : Nat) (a b : List SmVal) : (offsT off (a ++ b))[a.length]? = some (off + smCells a) := by
  induction a generalizing off with
  | nil => cases b <;> rfl
  | cons x a ih =>
    rw [List.cons_append, offsT, List.length_cons, List.getElem?_cons_succ, ih]
    simp only [smCells, List.map_cons, List.sum_cons]
    congr 1; omega

theorem offsT_last (off : Nat) (xs : List SmVal) : (offsT off xs).getLastD 0 = off + smCells xs := by
  have h := offsT_getElem? off xs []
  rw [List.append_nil] at h
  rw [List.getLastD_eq_getLast?, List.getLast?_eq_getElem?, offsT_length, Nat.add_sub_cancel, h]; rfl

theorem offsT_le (off : Nat) (xs : List SmVal) : ∀ o ∈ offsT off xs, o ≤ off + smCells xs := by
  induction xs generalizing off with
  | nil => intro o ho; simp only [offsT, List.mem_singleton] at ho; subst ho; simp
  | cons x xs ih =>
    intro o ho
    simp only [offsT, List.mem_cons] at ho
    simp only [smCells, List.map_cons, List.sum_cons]
    rcases ho with rfl | ho
    · omega
    · have := ih _ o ho; simp only [smCells] at this; omega

theorem data_length (xs : List SmVal) : (xs.map cellB).flatten.length = smCells xs := by
  induction xs with
  | nil => rfl
  | cons x xs ih =>
    simp only [List.map_cons, List.flatten_cons, List.length_append, cellB_length, ih, smCells, List.sum_cons]

theorem texts_length (xs : List SmVal) : (xs.map (fun v => textB (fmtT v))).flatten.length = 8 * xs.length := by
  induction xs with
  | nil => rfl
  | cons x xs ih => simp only [List.map_cons, List.flatten_cons, List.length_append, textB_length, ih, List.length_cons]; omega

theorem nums_length (ns : List Nat) : (ns.map (leBytes 8)).flatten.length = 8 * ns.length := by
  induction ns with
  | nil => rfl
  | cons x xs ih => simp only [List.map_cons, List.flatten_cons, List.length_append, leBytes_length, ih, List.length_cons]; omega

theorem packQ_nat {n : Nat} (h : n < 9223372036854775808) : packQ (n : Int) = .ok (leBytes 8 n) := by
  unfold packQ
  rw [if_pos (by omega)]
  congr 2
  omega

theorem unpackQ_nat {n : Nat} (h : n < 9223372036854775808) : unpackQ (leBytes 8 n) = n := by
  unfold unpackQ
  rw [leNat_leBytes]
  have h1 : (256 : Nat) ^ 8 = 18446744073709551616 := by norm_num
  rw [h1, Nat.mod_eq_of_lt (by omega), if_pos h]

/-! ### The block -/

/-- The block of a list. -/
def smBlock (slack : Nat) (xs : List SmVal) : List UInt8 :=
  leBytes 8 xs.length ++ ((offsT 0 xs).map (leBytes 8)).flatten ++ (xs.map cellB).flatten ++
    (xs.map (fun v => textB (fmtT v))).flatten ++ xs.map smCode ++ List.replicate slack 0

/-- The bytes asked for. -/
def smBlockSize (xs : List SmVal) : Nat := 8 + 8 * (xs.length + 1) + smCells xs + 8 * xs.length + xs.length

/-- The list object made. -/
def smMade (slack : Nat) (name : String) (xs : List SmVal) : SmList :=
  { name := name, buf := smBlock slack xs, len := xs.length, offsets := offsT 0 xs }

theorem smWidths {xs : List SmVal} (h : ∀ x ∈ xs, x ≠ .other) : ((xs.map fmtT).map smWidth).sum = smCells xs := by
  rw [List.map_map, smCells]
  congr 1
  exact List.map_congr_left (fun x hx => smWidth_fmtT (h x hx))

theorem smStorable_iff (v : SmVal) : v.Storable ↔ v ≠ .other ∧ (fmtT v).length ≤ 8 ∧ ∀ n, v = .int n → -9223372036854775808 ≤ n ∧ n < 9223372036854775808 := by
  rw [fmtT_short]
  cases v <;> simp [SmVal.Storable]

theorem rep_split (n m : Nat) : List.replicate (n + m) (0 : UInt8) = List.replicate n 0 ++ List.replicate m 0 :=
  List.replicate_add n m 0

theorem smMapM_map {c : α → γ} {f : γ → Except ε β} {g : α → β} {xs : List α} (h : ∀ x ∈ xs, f (c x) = .ok (g x)) :
    (xs.map c).mapM f = .ok (xs.map g) := by
  induction xs with
  | nil => rfl
  | cons x xs ih =>
    rw [List.map_cons, List.mapM_cons, h x List.mem_cons_self, ih (fun y hy => h y (List.mem_cons_of_mem _ hy))]; rfl

theorem head_pack {ns : List Nat} (h : ∀ o ∈ ns, o < 9223372036854775808) :
    (ns.map (fun (o : Nat) => (o : Int))).mapM packQ = .ok (ns.map (leBytes 8)) :=
  smMapM_map (fun o ho => packQ_nat (h o ho))

theorem cells_pack {xs : List SmVal} (hs : ∀ x ∈ xs, x.Storable) :
    ((xs.map fmtT).zip xs).mapM (fun p => packCell p.1 p.2) = .ok (xs.map cellB) := by
  have : (xs.map fmtT).zip xs = xs.map (fun x => (fmtT x, x)) := by
    clear hs
    induction xs with
    | nil => rfl
    | cons x xs ih => rw [List.map_cons, List.zip_cons_cons, ih]; rfl
  rw [this, List.mapM_map]
  exact smMapM_ok (fun x hx => packCell_ok (hs x hx))

/-- The four smWrites. -/
theorem smWrites (slack : Nat) (xs : List SmVal) :
    (do
      let buf ← packInto (List.replicate (smBlockSize xs + slack) (0 : UInt8)) 0 ((xs.length :: offsT 0 xs).map (leBytes 8)).flatten
      let buf ← packInto buf (smMade slack "" xs).dataStart.toNat (xs.map cellB).flatten
      let buf ← packInto buf (smMade slack "" xs).formatsStart.toNat ((xs.map fmtT).map textB).flatten
      packInto buf (smMade slack "" xs).codesStart.toNat (xs.map smCode)) = Except.ok (smBlock slack xs) := by
  have hh : ((xs.length :: offsT 0 xs).map (leBytes 8)).flatten = leBytes 8 xs.length ++ ((offsT 0 xs).map (leBytes 8)).flatten := rfl
  have hhl : (leBytes 8 xs.length ++ ((offsT 0 xs).map (leBytes 8)).flatten).length = 8 + 8 * (xs.length + 1) := by
    rw [List.length_append, leBytes_length, nums_length, offsT_length]
  have e0 : List.replicate (smBlockSize xs + slack) (0 : UInt8) =
      [] ++ List.replicate (8 + 8 * (xs.length + 1)) 0 ++ (List.replicate (smCells xs) 0 ++ (List.replicate (8 * xs.length) 0 ++
        (List.replicate xs.length 0 ++ List.replicate slack 0))) := by
    rw [List.nil_append, ← rep_split, ← rep_split, ← rep_split, ← rep_split]
    congr 1; unfold smBlockSize; omega
  have d1 : (smMade slack "" xs).dataStart.toNat = 8 + 8 * (xs.length + 1) := by
    simp only [SmList.dataStart, smMade]; omega
  have d2 : (smMade slack "" xs).formatsStart.toNat = 8 + 8 * (xs.length + 1) + smCells xs := by
    simp only [SmList.formatsStart, SmList.dataStart, smMade, offsT_last]; omega
  have d3 : (smMade slack "" xs).codesStart.toNat = 8 + 8 * (xs.length + 1) + smCells xs + 8 * xs.length := by
    simp only [SmList.codesStart, SmList.formatsStart, SmList.dataStart, smMade, offsT_last]; omega
  rw [hh, e0, packInto_mid [] _ _ _ 0 rfl (by rw [hhl, List.length_replicate]), d1, d2, d3]
  rw [List.nil_append]
  generalize hH : leBytes 8 xs.length ++ ((offsT 0 xs).map (leBytes 8)).flatten = H at hhl ⊢
  show (packInto _ _ _ >>= _) = _
  rw [← List.append_assoc H, packInto_mid _ _ _ _ _ hhl.symm (by rw [data_length, List.length_replicate])]
  show (packInto _ _ _ >>= _) = _
  rw [List.map_map, ← List.append_assoc _ (List.replicate (8 * xs.length) 0),
    packInto_mid _ _ _ _ _ (by rw [List.length_append, hhl, data_length])
      (by rw [List.length_replicate]; exact texts_length xs)]
  show packInto _ _ _ = _
  rw [← List.append_assoc _ (List.replicate xs.length 0),
    packInto_mid _ _ _ _ _ (by rw [List.length_append, List.length_append, hhl, data_length]; exact congrArg _ (texts_length xs).symm)
      (by rw [List.length_replicate, List.length_map])]
  unfold smBlock
  rw [hH]; rfl

theorem smSize_fmtT {xs : List SmVal} (hne : ∀ x ∈ xs, x ≠ .other) : smSize (xs.map fmtT) = smBlockSize xs := by
  unfold smSize
  rw [smWidths hne, List.length_map]; rfl

theorem smBlank_fmtT {slack : Nat} {name : String} {xs : List SmVal} (hne : ∀ x ∈ xs, x ≠ .other) :
    smBlank slack name (xs.map fmtT) =
      { name := name, buf := List.replicate (smBlockSize xs + slack) (0 : UInt8), len := xs.length, offsets := offsT 0 xs } := by
  unfold smBlank
  rw [smSize_fmtT hne, smOffsets_map hne, List.length_map]

theorem write_ok {slack : Nat} {name : String} {xs : List SmVal} (hs : ∀ x ∈ xs, x.Storable)
    (hb : smBlockSize xs < 9223372036854775808) :
    (smBlank slack name (xs.map fmtT)).write (xs.map fmtT) xs = .ok (smBlock slack xs) := by
  have hne : ∀ x ∈ xs, x ≠ .other := fun x hx => ((smStorable_iff x).1 (hs x hx)).1
  have h1 := head_pack (ns := xs.length :: offsT 0 xs) (by
    intro o ho
    rcases List.mem_cons.1 ho with rfl | ho
    · exact lt_of_le_of_lt (by unfold smBlockSize; omega) hb
    · exact lt_of_le_of_lt (le_trans (offsT_le 0 xs o ho) (by unfold smBlockSize; omega)) hb)
  rw [List.map_cons] at h1
  have h2 := cells_pack hs
  have h3 := smWrites slack xs
  rw [smBlank_fmtT hne]
  unfold SmList.write
  rw [h1, h2]
  exact h3

theorem any_long {xs : List SmVal} (h : ∀ x ∈ xs, (fmtT x).length ≤ 8) :
    (xs.map fmtT).any (fun f => decide (8 < f.length)) = false := by
  rw [List.any_eq_false]
  intro f hf
  obtain ⟨x, hx, rfl⟩ := List.mem_map.1 hf
  have := h x hx
  simp; omega

theorem smFill_ok {heap : SmHeap} {l : SmList} {fmts : List (List Char)} {xs : List SmVal} {buf : List UInt8}
    (hw : l.write fmts xs = .ok buf) :
    smFill heap l fmts xs = (Function.update heap l.name (some buf), .ok { l with buf := buf }) := by
  unfold smFill
  rw [hw]

theorem smFill_fmtT {slack : Nat} {heap : SmHeap} {name : String} {xs : List SmVal} (hs : ∀ x ∈ xs, x.Storable)
    (hb : smBlockSize xs < 9223372036854775808) :
    smFill heap (smBlank slack name (xs.map fmtT)) (xs.map fmtT) xs =
      (Function.update heap name (some (smBlock slack xs)), .ok (smMade slack name xs)) := by
  have hne : ∀ x ∈ xs, x ≠ .other := fun x hx => ((smStorable_iff x).1 (hs x hx)).1
  rw [smFill_ok (write_ok (slack := slack) (name := name) hs hb), smBlank_fmtT hne]; rfl

theorem smCreate_new {avail slack : Nat} {heap : SmHeap} {name : String} {xs : List SmVal} (hne : ∀ x ∈ xs, x ≠ .other) :
    smCreate avail slack heap name xs = smNew avail slack heap name xs (xs.map fmtT) := by
  unfold smCreate
  rw [smMapM_ok (fun x hx => smFormat_ok (hne x hx))]

theorem smNew_fill {avail slack : Nat} {heap : SmHeap} {name : String} {xs : List SmVal} {fmts : List (List Char)}
    (h1 : fmts.any (fun f => decide (8 < f.length)) = false) (h2 : smSize fmts ≤ avail) (h3 : heap name = none) :
    smNew avail slack heap name xs fmts = smFill heap (smBlank slack name fmts) fmts xs := by
  unfold smNew
  rw [if_neg (by rw [h1]; simp), if_neg (not_lt.2 h2), h3, if_neg (by simp)]

/-- What making a list smWrites. -/
theorem smCreate_ok {avail slack : Nat} (ha : avail < 9223372036854775808) {heap : SmHeap} {name : String} {xs : List SmVal}
    (hs : ∀ x ∈ xs, x.Storable) (hav : smBlockSize xs ≤ avail) (hname : heap name = none) :
    smCreate avail slack heap name xs = (Function.update heap name (some (smBlock slack xs)), .ok (smMade slack name xs)) := by
  have hne : ∀ x ∈ xs, x ≠ .other := fun x hx => ((smStorable_iff x).1 (hs x hx)).1
  have hsh : ∀ x ∈ xs, (fmtT x).length ≤ 8 := fun x hx => ((smStorable_iff x).1 (hs x hx)).2.1
  rw [smCreate_new hne, smNew_fill (any_long hsh) (by rw [smSize_fmtT hne]; exact hav) hname,
    smFill_fmtT hs (lt_of_le_of_lt hav ha)]

end Grain
