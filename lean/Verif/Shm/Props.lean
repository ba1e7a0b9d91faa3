import Verif.Shm.Lemmas
/-
C83: elements arrive from a worker process as they were in it, and the memory used on the way is released.
C84: adding multiprocess prefetching to a dataset leaves that dataset as it is.
-/
namespace Grain

/-- Blocks that have not been made yet do not exist. -/
def ShmHeap.Ok (h : ShmHeap) : Prop := ∀ n, h.next ≤ n → h.blocks n = none

/-- Leaves for which C83 is proved: anything that is not an array; ordinary arrays (with all their bytes, items of at least one
byte); an array in shared memory that begins at the beginning of its block and is contiguous.  Left out are views that do not
(`view_crosses`), arrays derived from arrays in shared memory (`derived_refused`), and `SharedMemoryArrayMetadata` made by the user. -/
def ShmLeaf.Sendable (h : ShmHeap) : ShmLeaf O → Prop
  | .other _ => True
  | .nd shape d bytes _ => bytes.length = d.nbytes shape ∧ 0 < d.itemsize
  | .shm name pos shape d => (∃ b, h.blocks name = some b ∧ d.nbytes shape ≤ b.length) ∧ name < h.next ∧ pos = List.range (d.nbytes shape)
  | .detached _ _ _ => False
  | .info _ _ _ => False

/-- Not an array in shared memory. -/
def ShmLeaf.Plain : ShmLeaf O → Prop
  | .other _ => True
  | .nd shape d bytes _ => bytes.length = d.nbytes shape ∧ 0 < d.itemsize
  | _ => False

/-- The block a leaf refers to. -/
def ShmLeaf.block : ShmLeaf O → Option Nat
  | .info name _ _ => some name
  | .shm name _ _ _ => some name
  | _ => none

theorem mapM_range_take (b : List Nat) {n : Nat} (h : n ≤ b.length) :
    (List.range n).mapM (fun i => b[i]?) = some (b.take n) := by
  induction n with
  | zero => rfl
  | succ n ih =>
    have hlt : n < b.length := by omega
    rw [List.range_succ, List.mapM_append, ih (by omega), List.take_add_one]
    simp [List.getElem?_eq_getElem hlt]

theorem shmMake_ok {can : Nat → Bool} (hcan : ∀ n, can n = true) {bytes : List Nat} (hb : bytes.length ≠ 0) (h : ShmHeap) :
    shmMake can bytes h = ({ blocks := Function.update h.blocks h.next (some bytes), next := h.next + 1 }, .ok h.next) := by
  simp only [shmMake, hb, if_false, hcan, if_true]

/-- `g` still has the blocks that `h` has. -/
def ShmHeap.Keeps (h g : ShmHeap) : Prop := ∀ n, n < h.next → g.blocks n = h.blocks n

theorem value_keeps {h g : ShmHeap} (hk : h.Keeps g) {x : ShmLeaf O} (hx : x.Sendable h) : x.value g = x.value h := by
  cases x with
  | shm name pos shape d =>
    obtain ⟨_, hn, _⟩ := hx
    simp only [ShmLeaf.value, hk name hn]
  | _ => rfl

theorem sendable_keeps {h g : ShmHeap} (hk : h.Keeps g) (hn : h.next ≤ g.next) {x : ShmLeaf O} (hx : x.Sendable h) : x.Sendable g := by
  cases x with
  | shm name pos shape d =>
    obtain ⟨⟨b, h1, h2⟩, h3, h4⟩ := hx
    exact ⟨⟨b, by rw [hk name h3, h1], h2⟩, by omega, h4⟩
  | _ => exact hx

/-- Not an array in shared memory / not metadata. -/
def ShmLeaf.isShm : ShmLeaf O → Bool
  | .shm _ _ _ _ => true
  | _ => false
def ShmLeaf.isInfo : ShmLeaf O → Bool
  | .info _ _ _ => true
  | _ => false

/-- One leaf: copying, and opening later. -/
theorem copyLeaf_spec {can : Nat → Bool} (hcan : ∀ n, can n = true) (minSize : Int) {h : ShmHeap} (hh : h.Ok) {x : ShmLeaf O}
    (hx : x.Sendable h) :
    ∃ h1 m, copyLeaf can minSize x h = (h1, .ok m) ∧ h1.Ok ∧ h.next ≤ h1.next ∧ h.Keeps h1 ∧ m.isShm = false ∧
      (∀ g, h1.Keeps g → ∃ o, openLeaf m g = (g, .ok o) ∧ o.value g = x.value h ∧ o.block = m.block ∧ o.isInfo = false) ∧
      (x.Plain → m.block = none ∧ h1 = h ∨ m.block = some h.next ∧ h1.next = h.next + 1 ∧ ∃ b, h1.blocks h.next = some b) := by
  cases x with
  | other o =>
    exact ⟨h, .other o, rfl, hh, Nat.le_refl _, fun _ _ => rfl, rfl, fun g _ => ⟨_, rfl, rfl, rfl, rfl⟩, fun _ => Or.inl ⟨rfl, rfl⟩⟩
  | detached _ _ _ => exact absurd hx (by simp [ShmLeaf.Sendable])
  | info _ _ _ => exact absurd hx (by simp [ShmLeaf.Sendable])
  | shm name pos shape d =>
    obtain ⟨⟨b, h1, h2⟩, h3, h4⟩ := hx
    refine ⟨h, .info name shape d, rfl, hh, Nat.le_refl _, fun _ _ => rfl, rfl, ?_, fun hp => absurd hp (by simp [ShmLeaf.Plain])⟩
    intro g hg
    refine ⟨.shm name (List.range (d.nbytes shape)) shape d, ?_, ?_, rfl, rfl⟩
    · simp only [openLeaf, hg name h3, h1]
    · simp only [ShmLeaf.value, hg name h3, h4]
  | nd shape d bytes contig =>
    obtain ⟨hlen, hpos⟩ := hx
    by_cases hc : (d.hasobject || !contig || decide (shape.prod = 0) || decide ((d.nbytes shape : Int) < minSize)) = true
    · refine ⟨h, .nd shape d bytes contig, ?_, hh, Nat.le_refl _, fun _ _ => rfl, rfl, fun g _ => ⟨_, rfl, rfl, rfl, rfl⟩,
        fun _ => Or.inl ⟨rfl, rfl⟩⟩
      simp only [copyLeaf, hc, if_true]
    · have hb : bytes.length ≠ 0 := by
        rw [hlen, ShmDType.nbytes]
        simp only [Bool.or_eq_true, decide_eq_true_eq, not_or] at hc
        exact Nat.mul_ne_zero hc.1.2 (by omega)
      have hup : ∀ n, n < h.next → Function.update h.blocks h.next (some bytes) n = h.blocks n := by
        intro n hn
        rw [Function.update_of_ne (by omega)]
      refine ⟨{ blocks := Function.update h.blocks h.next (some bytes), next := h.next + 1 }, .info h.next shape d, ?_, ?_,
        Nat.le_succ _, hup, rfl, ?_, ?_⟩
      · simp only [copyLeaf, hc, Bool.false_eq_true, if_false, shmMake_ok hcan hb]
      · intro n hn
        have hn : h.next + 1 ≤ n := hn
        show Function.update h.blocks h.next (some bytes) n = none
        rw [Function.update_of_ne (by omega)]
        exact hh n (by omega)
      · intro g hg
        have hgb : g.blocks h.next = some bytes := by
          rw [hg h.next (by show h.next < h.next + 1; omega)]
          exact Function.update_self ..
        refine ⟨.shm h.next (List.range (d.nbytes shape)) shape d, ?_, ?_, rfl, rfl⟩
        · simp only [openLeaf, hgb]
        · simp only [ShmLeaf.value, hgb]
          rw [mapM_range_take bytes (by omega), List.take_of_length_le (by omega)]
          rfl
      · intro _
        exact Or.inr ⟨rfl, rfl, bytes, Function.update_self ..⟩

/-- All leaves. -/
theorem copyList_spec {can : Nat → Bool} (hcan : ∀ n, can n = true) (minSize : Int) : ∀ (l : List (ShmLeaf O)) (h : ShmHeap), h.Ok →
    (∀ x ∈ l, x.Sendable h) →
    ∃ h1 m, listS (copyLeaf can minSize) l h = (h1, .ok m) ∧ h1.Ok ∧ h.next ≤ h1.next ∧ h.Keeps h1 ∧ (∀ y ∈ m, y.isShm = false) ∧
      (∀ g, h1.Keeps g → ∃ o, listS openLeaf m g = (g, .ok o) ∧ o.map (·.value g) = l.map (·.value h) ∧
        o.filterMap (·.block) = m.filterMap (·.block) ∧ ∀ y ∈ o, y.isInfo = false) ∧
      ((∀ x ∈ l, x.Plain) → m.filterMap (·.block) = List.range' h.next (h1.next - h.next) ∧
        ∀ n, h.next ≤ n → n < h1.next → ∃ b, h1.blocks n = some b)
  | [], h, hh, _ => ⟨h, [], rfl, hh, Nat.le_refl _, fun _ _ => rfl, by simp, fun g _ => ⟨[], rfl, rfl, rfl, by simp⟩,
      fun _ => ⟨by simp, fun n h1 h2 => absurd h2 (by omega)⟩⟩
  | x :: l, h, hh, hl => by
    obtain ⟨h1, m, e1, ok1, le1, k1, ns1, op1, pl1⟩ := copyLeaf_spec hcan minSize hh (hl x (by simp))
    have hl' : ∀ y ∈ l, y.Sendable h1 := fun y hy => sendable_keeps k1 le1 (hl y (by simp [hy]))
    obtain ⟨h2, ms, e2, ok2, le2, k2, ns2, op2, pl2⟩ := copyList_spec hcan minSize l h1 ok1 hl'
    refine ⟨h2, m :: ms, ?_, ok2, by omega, fun n hn => by rw [k2 n (by omega), k1 n hn], ?_, ?_, ?_⟩
    · simp only [listS, e1, e2]
    · intro y hy
      rcases List.mem_cons.1 hy with rfl | hy
      · exact ns1
      · exact ns2 y hy
    · intro g hg
      obtain ⟨o, f1, f2, f3, f4⟩ := op1 g (fun n hn => by rw [hg n (by omega), k2 n hn])
      obtain ⟨os, g1, g2, g3, g4⟩ := op2 g hg
      refine ⟨o :: os, ?_, ?_, ?_, ?_⟩
      · simp only [listS, f1, g1]
      · rw [List.map_cons, List.map_cons, f2, g2]
        congr 1
        refine List.map_congr_left (fun y hy => ?_)
        exact value_keeps k1 (hl y (by simp [hy]))
      · rw [List.filterMap_cons, List.filterMap_cons, f3, g3]
      · intro y hy
        rcases List.mem_cons.1 hy with rfl | hy
        · exact f4
        · exact g4 y hy
    · intro hp
      obtain ⟨q1, q2⟩ := pl2 (fun y hy => hp y (by simp [hy]))
      rcases pl1 (hp x (by simp)) with ⟨r1, r2⟩ | ⟨r1, r2, b, r3⟩
      · subst r2
        refine ⟨?_, q2⟩
        rw [List.filterMap_cons, r1]
        exact q1
      · refine ⟨?_, ?_⟩
        · rw [List.filterMap_cons, r1]
          show h.next :: _ = _
          rw [q1, r2, show h2.next - h.next = (h2.next - (h.next + 1)) + 1 by omega, List.range'_succ]
        · intro n hn hn'
          by_cases he : n = h.next
          · subst he
            exact ⟨b, by rw [k2 _ (by omega), r3]⟩
          · exact q2 n (by omega) hn'

/-- Releasing leaves that refer to different existing blocks removes exactly those blocks. -/
theorem release_spec {f : ShmLeaf O → ShmM Unit} :
    ∀ (l : List (ShmLeaf O)) (h : ShmHeap),
      (∀ x ∈ l, ∀ h, f x h = match x.block with | none => (h, .ok ()) | some n => shmUnlink n h) →
      (l.filterMap (·.block)).Nodup → (∀ n ∈ l.filterMap (·.block), ∃ b, h.blocks n = some b) →
      ∃ h' us, listS f l h = (h', .ok us) ∧ ∀ n, h'.blocks n = if n ∈ l.filterMap (·.block) then none else h.blocks n
  | [], h, _, _, _ => ⟨h, [], rfl, fun n => by simp⟩
  | x :: l, h, hf, hnd, hex => by
    have hf' : ∀ y ∈ l, ∀ h, f y h = match y.block with | none => (h, .ok ()) | some n => shmUnlink n h :=
      fun y hy => hf y (by simp [hy])
    cases hb : x.block with
    | none =>
      rw [List.filterMap_cons, hb] at hnd hex
      obtain ⟨h', us, e1, e2⟩ := release_spec l h hf' hnd hex
      refine ⟨h', () :: us, ?_, ?_⟩
      · simp only [listS, hf x (by simp), hb, e1]
      · intro n; rw [List.filterMap_cons, hb]; exact e2 n
    | some k =>
      rw [List.filterMap_cons, hb] at hnd hex
      dsimp only at hnd hex
      rw [List.nodup_cons] at hnd
      obtain ⟨b, hk⟩ := hex k (by simp)
      have hex' : ∀ n ∈ l.filterMap (·.block), ∃ b, Function.update h.blocks k none n = some b := by
        intro n hn
        obtain ⟨b', hb'⟩ := hex n (by simp [hn])
        have hne : n ≠ k := by intro he; rw [he] at hn; exact hnd.1 hn
        exact ⟨b', by rw [Function.update_of_ne hne, hb']⟩
      obtain ⟨h', us, e1, e2⟩ := release_spec l { h with blocks := Function.update h.blocks k none } hf' hnd.2 hex'
      refine ⟨h', () :: us, ?_, ?_⟩
      · simp only [listS, hf x (by simp), hb, shmUnlink, hk, e1]
      · intro n
        rw [List.filterMap_cons, hb, e2 n]
        dsimp only
        by_cases hn : n = k
        · subst hn; simp [Function.update_self]
        · simp [Function.update_of_ne hn, hn]

/-! ### C83 -/

/-- C83 for elements all of whose leaves are `Sendable`: whatever the structure of the element, the data types, shapes and sizes
of its arrays and `min_shm_size`, the element that arrives in the main process has the same structure and the same values as the
one the worker sent.  Missing: views of arrays in shared memory and arrays derived from them, for which it is false
(`view_crosses`, `derived_refused`). -/
theorem element_crosses_partial {can : Nat → Bool} (hcan : ∀ n, can n = true) (minSize : Int) {h : ShmHeap} (hh : h.Ok)
    (t : Tree (ShmLeaf O)) (ht : ∀ x ∈ t.flatten, x.Sendable h) :
    ∃ h' t', crossProcess can minSize t h = (h', .ok t') ∧ t'.map (·.value h') = t.map (·.value h) ∧
      ∀ v ∈ (t'.map (·.value h')).flatten, v ≠ none := by
  obtain ⟨h1, m, e1, _, _, _, _, op, _⟩ := copyList_spec hcan minSize t.flatten h hh ht
  obtain ⟨u, u1, u2, u3⟩ := Tree.mapS_ok e1
  obtain ⟨o, o1, o2, _⟩ := op h1 (fun _ _ => rfl)
  rw [← u3] at o1
  obtain ⟨w, w1, w2, w3⟩ := Tree.mapS_ok o1
  have heq : w.map (·.value h1) = t.map (·.value h) := by
    refine flatten_injective _ _ ?_ ?_
    · have a := (map_structure_spec (fun x : ShmLeaf O => x.value h1) w).1
      have b := (map_structure_spec (fun x : ShmLeaf O => x.value h) t).1
      simp only [Tree.SameShape] at a b w2 u2 ⊢
      rw [a, b, w2, u2]
    · rw [(map_structure_spec _ w).2.1, (map_structure_spec _ t).2.1, w3, o2]
  refine ⟨h1, w, ?_, heq, ?_⟩
  · simp only [crossProcess, copyToShm, u1, openFromShm, w1]
  · rw [heq, (map_structure_spec _ t).2.1]
    intro v hv
    obtain ⟨x, hx, rfl⟩ := List.mem_map.1 hv
    have hs := ht x hx
    cases x with
    | shm name pos shape d =>
      obtain ⟨⟨b, hb1, hb2⟩, _, hpos⟩ := hs
      simp only [ShmLeaf.value, hb1, hpos, mapM_range_take b hb2]
      simp
    | other _ => simp [ShmLeaf.value]
    | nd _ _ _ _ => simp [ShmLeaf.value]
    | detached _ _ _ => exact absurd hs (by simp [ShmLeaf.Sendable])
    | info _ _ _ => exact absurd hs (by simp [ShmLeaf.Sendable])

theorem plain_sendable {h : ShmHeap} {x : ShmLeaf O} (hx : x.Plain) : x.Sendable h := by
  cases x with
  | other _ => trivial
  | nd _ _ _ _ => exact hx
  | shm _ _ _ _ => exact absurd hx (by simp [ShmLeaf.Plain])
  | detached _ _ _ => exact absurd hx (by simp [ShmLeaf.Plain])
  | info _ _ _ => exact absurd hx (by simp [ShmLeaf.Plain])

/-- C83, memory: an element of ordinary arrays makes new blocks, each referred to by exactly one leaf of what is put in the queue
(`work_item` of the process prefetch model); if the entry is discarded, `unlink_shm` releases them all without an exception; if the
element is returned to the user, dropping it releases them all.  In both cases the blocks that exist afterwards are those that
existed before. -/
theorem element_memory_released {can : Nat → Bool} (hcan : ∀ n, can n = true) (minSize : Int) {h : ShmHeap} (hh : h.Ok)
    (t : Tree (ShmLeaf O)) (ht : ∀ x ∈ t.flatten, x.Plain) :
    ∃ h' m, copyToShm can minSize t h = (h', .ok m) ∧
      m.flatten.filterMap (·.block) = List.range' h.next (h'.next - h.next) ∧
      (∃ h2 us, unlinkShm m h' = (h2, .ok us) ∧ h2.blocks = h.blocks) ∧
      (∃ t' h2 us, openFromShm m h' = (h', .ok t') ∧ deleteElement true t' h' = (h2, .ok us) ∧ h2.blocks = h.blocks) := by
  obtain ⟨h1, m, e1, ok1, le1, k1, ns, op, pl⟩ := copyList_spec hcan minSize t.flatten h hh (fun x hx => plain_sendable (ht x hx))
  obtain ⟨p1, p2⟩ := pl ht
  obtain ⟨u, u1, u2, u3⟩ := Tree.mapS_ok e1
  obtain ⟨o, o1, _, o3, ni⟩ := op h1 (fun _ _ => rfl)
  rw [← u3] at o1
  obtain ⟨w, w1, w2, w3⟩ := Tree.mapS_ok o1
  have hnd : (m.filterMap (·.block)).Nodup := by rw [p1]; exact List.nodup_range'
  have hex : ∀ n ∈ m.filterMap (·.block), ∃ b, h1.blocks n = some b := by
    intro n hn
    rw [p1, List.mem_range'_1] at hn
    exact p2 n (by omega) (by omega)
  have hback : ∀ n, (if n ∈ m.filterMap (·.block) then none else h1.blocks n) = h.blocks n := by
    intro n
    rw [p1]
    by_cases hn : n < h.next
    · rw [if_neg (by rw [List.mem_range'_1]; omega), k1 n hn]
    · rw [hh n (by omega)]
      by_cases hn' : n < h1.next
      · rw [if_pos (by rw [List.mem_range'_1]; omega)]
      · rw [ok1 n (by omega)]; split <;> rfl
  refine ⟨h1, u, u1, by rw [u3]; exact p1, ?_, ?_⟩
  · obtain ⟨h2, us, r1, r2⟩ := release_spec (f := unlinkLeaf) m h1 (by
      intro x hx h
      have := ns x hx
      cases x <;> first | rfl | cases this) hnd hex
    rw [← u3] at r1
    obtain ⟨v, v1, _, _⟩ := Tree.mapS_ok r1
    exact ⟨h2, v, v1, funext (fun n => by rw [r2, hback])⟩
  · obtain ⟨h2, us, r1, r2⟩ := release_spec (f := deleteLeaf true) o h1 (by
      intro x hx h
      have := ni x hx
      cases x <;> first | rfl | cases this) (by rw [o3]; exact hnd) (by rw [o3]; exact hex)
    rw [← w3] at r1
    obtain ⟨v, v1, _, _⟩ := Tree.mapS_ok r1
    exact ⟨w, h2, v, w1, v1, funext (fun n => by rw [r2, o3, hback])⟩

/-! Non-vacuity: an element with an array, a label, an array too small for shared memory and a list. -/

/-- Two-byte integers. -/
def int16 : ShmDType := { code := 1, itemsize := 2, hasobject := false }
/-- Bytes. -/
def uint8 : ShmDType := { code := 2, itemsize := 1, hasobject := false }

/-- No blocks yet. -/
def ShmHeap.empty : ShmHeap := { blocks := fun _ => none, next := 0 }

def crossExample : Tree (ShmLeaf String) :=
  .dict .dict (.cons "image" (.leaf (.nd [2, 3] int16 [1, 0, 2, 0, 3, 0, 4, 0, 5, 0, 6, 0] true))
    (.cons "label" (.leaf (.other "cat"))
      (.cons "sizes" (.seq .list (.cons (.leaf (.nd [4] uint8 [7, 8, 9, 10] true)) (.cons (.leaf (.nd [2] uint8 [1, 2] true)) .nil))) .nil)))

example : ∀ x ∈ crossExample.flatten, x.Plain := by
  simp [crossExample, Tree.flatten, TreeList.flatten, TreeDict.flatten, ShmLeaf.Plain, int16, uint8, ShmDType.nbytes]

example : ShmHeap.empty.Ok := fun _ _ => rfl

example : ((copyToShm (fun _ => true) 3 crossExample ShmHeap.empty).1.blocks 0 = some [1, 0, 2, 0, 3, 0, 4, 0, 5, 0, 6, 0]) ∧
    ((copyToShm (fun _ => true) 3 crossExample ShmHeap.empty).1.blocks 1 = some [7, 8, 9, 10]) ∧
    ((copyToShm (fun _ => true) 3 crossExample ShmHeap.empty).1.next = 2) := ⟨rfl, rfl, rfl⟩

/-! ### What is false -/

/-- C83 is false for views of arrays in shared memory: whatever part of the block the view shows, the first bytes of the block
arrive.  Nothing is raised. -/
theorem view_crosses (can : Nat → Bool) (minSize : Int) {h : ShmHeap} {name : Nat} {b pos shape : List Nat} {d : ShmDType}
    (hb : h.blocks name = some b) (hlen : d.nbytes shape ≤ b.length) :
    ∃ t' : Tree (ShmLeaf O), crossProcess can minSize (.leaf (.shm name pos shape d)) h = (h, .ok t') ∧
      t'.map (·.value h) = .leaf (some (.arr shape d (b.take (d.nbytes shape)))) := by
  refine ⟨.leaf (.shm name (List.range (d.nbytes shape)) shape d), ?_, ?_⟩
  · simp only [crossProcess, copyToShm, Tree.mapS, copyLeaf, openFromShm, openLeaf, hb]
  · simp only [Tree.map, ShmLeaf.value, hb, mapM_range_take b hlen]
    rfl

/-- An array derived from one in shared memory without sharing its memory (`x.astype(..)`, `x.copy()`, `x[[0, 2]]`) makes the worker
fail with `AssertionError`. -/
theorem derived_refused (can : Nat → Bool) (minSize : Int) (h : ShmHeap) (shape : List Nat) (d : ShmDType) (bytes : List Nat) :
    crossProcess can minSize (.leaf (.detached shape d bytes : ShmLeaf O)) h = (h, .error .assertion) := rfl

/-- An element that refers to the same array in shared memory twice: discarding it raises `FileNotFoundError`. -/
theorem shared_twice_discard_raises {h : ShmHeap} {name : Nat} {b pos shape : List Nat} {d : ShmDType} (can : Nat → Bool) (minSize : Int)
    (hb : h.blocks name = some b) :
    ∃ m h', copyToShm can minSize (.seq .tuple (.cons (.leaf (.shm name pos shape d : ShmLeaf O)) (.cons (.leaf (.shm name pos shape d)) .nil))) h =
      (h, .ok m) ∧ unlinkShm m h = (h', .error .notFound) := by
  refine ⟨_, { h with blocks := Function.update h.blocks name none }, rfl, ?_⟩
  simp only [unlinkShm, Tree.mapS, TreeList.mapS, unlinkLeaf, shmUnlink, hb, Function.update_self]

/-- If a block cannot be made, those made before for the same element are never released: the worker drops the only references
to them and `copy_to_shm` raises. -/
theorem copy_failure_leaks : ∃ (can : Nat → Bool) (t : Tree (ShmLeaf String)) (h' : ShmHeap),
    (∀ x ∈ t.flatten, x.Plain) ∧ copyToShm can 0 t ShmHeap.empty = (h', .error .os) ∧ h'.blocks 0 = some [1, 2] := by
  refine ⟨fun n => n == 0, .seq .tuple (.cons (.leaf (.nd [2] uint8 [1, 2] true)) (.cons (.leaf (.nd [1] uint8 [3] true)) .nil)), _, ?_, rfl, rfl⟩
  simp [Tree.flatten, TreeList.flatten, ShmLeaf.Plain, uint8, ShmDType.nbytes]

/-! ### C84 -/

theorem flatten_length_const {rows : List (List Nat)} {w : Nat} (h : ∀ r ∈ rows, r.length = w) : rows.flatten.length = rows.length * w := by
  induction rows with
  | nil => simp
  | cons r rows ih =>
    rw [List.flatten_cons, List.length_append, ih (fun x hx => h x (by simp [hx])), h r (by simp), List.length_cons, Nat.succ_mul, Nat.add_comm]

theorem flatten_drop_const {rows : List (List Nat)} {w : Nat} (h : ∀ r ∈ rows, r.length = w) (k : Nat) :
    rows.flatten.drop (k * w) = (rows.drop k).flatten ∧ rows.flatten.take (k * w) = (rows.take k).flatten := by
  induction rows generalizing k with
  | nil => simp
  | cons r rows ih =>
    cases k with
    | zero => simp
    | succ k =>
      have hr := h r (by simp)
      obtain ⟨i1, i2⟩ := ih (fun x hx => h x (by simp [hx])) k
      have e : (k + 1) * w = r.length + k * w := by rw [hr, Nat.succ_mul, Nat.add_comm]
      rw [List.flatten_cons, e, List.drop_length_add_append, List.take_length_add_append, i1, i2]
      simp

section
variable {can : Nat → Bool} {shape : List Nat} {d : ShmDType} {rows : List (List Nat)} {h : ShmHeap} {O : Type}

private theorem nbytes_rows (hrows : ∀ r ∈ rows, r.length = d.nbytes shape) : rows.flatten.length = d.nbytes (rows.length :: shape) := by
  rw [flatten_length_const hrows, ShmDType.nbytes, ShmDType.nbytes, List.prod_cons, Nat.mul_assoc]

/-- C84, the values: switching a batch dataset to shared memory does not change the values of its batches. -/
theorem batch_value_same (hcan : ∀ n, can n = true) (hne : rows ≠ []) (hpos : 0 < d.nbytes shape)
    (hrows : ∀ r ∈ rows, r.length = d.nbytes shape) (shm : Bool) :
    ∃ h' x, (batchLeaf can shm shape d rows h : ShmHeap × Except ShmErr (ShmLeaf O)) = (h', .ok x) ∧
      x.value h' = some (.arr (rows.length :: shape) d rows.flatten) := by
  have hn : rows.length ≠ 0 := by simpa using hne
  by_cases hc : (rows.length = 1 || !shm || d.hasobject) = true
  · exact ⟨h, .nd (rows.length :: shape) d rows.flatten true, by simp only [batchLeaf, hn, if_false]; rw [if_pos hc], rfl⟩
  · have hb : rows.flatten.length ≠ 0 := by
      rw [flatten_length_const hrows]; exact Nat.mul_ne_zero hn (by omega)
    refine ⟨{ blocks := Function.update h.blocks h.next (some rows.flatten), next := h.next + 1 },
      .shm h.next (List.range (d.nbytes (rows.length :: shape))) (rows.length :: shape) d, ?_, ?_⟩
    · simp only [batchLeaf, hn, if_false]
      rw [if_neg hc, shmMake_ok hcan hb]
    · simp only [ShmLeaf.value, Function.update_self]
      rw [← nbytes_rows hrows, mapM_range_take _ (Nat.le_refl _), List.take_length]
      rfl

/-- C84, a dataset that was not switched: reading it gives the batches and uses no shared memory. -/
theorem batches_read_partial (bs : List (List (List Nat))) (hbs : ∀ rows ∈ bs, rows ≠ []) :
    readBatches O can false shape d bs h =
      (h, .ok (bs.map (fun rows => some (.arr (rows.length :: shape) d rows.flatten)))) := by
  induction bs with
  | nil => rfl
  | cons rows bs ih =>
    have hn : rows.length ≠ 0 := by simpa using hbs rows (by simp)
    have hbl : (batchLeaf can false shape d rows h : ShmHeap × Except ShmErr (ShmLeaf O)) =
        (h, .ok (.nd (rows.length :: shape) d rows.flatten true)) := by
      simp only [batchLeaf, hn, if_false]
      simp
    simp only [readBatches, hbl, deleteLeaf, ih (fun r hr => hbs r (by simp [hr])), List.map_cons, ShmLeaf.value]

/-- C84 is false, memory: after `ds.mp_prefetch` with two or more workers, each batch (of at least two elements) read from `ds` itself
leaves a block behind that nobody releases. -/
theorem batches_leak (hcan : ∀ n, can n = true) (numWorkers : Nat) (hw : 2 ≤ numWorkers) (ho : d.hasobject = false)
    (hpos : 0 < d.nbytes shape) (bs : List (List (List Nat))) (hbs : ∀ rows ∈ bs, 2 ≤ rows.length ∧ ∀ r ∈ rows, r.length = d.nbytes shape) :
    ∃ h' vs, readBatches O can (mpPrefetchInput numWorkers false) shape d bs h = (h', .ok vs) ∧ h'.next = h.next + bs.length ∧
      h.Keeps h' ∧ ∀ i, i < bs.length → (h'.blocks (h.next + i)).isSome = true := by
  have hs : mpPrefetchInput numWorkers false = true := by
    simp only [mpPrefetchInput]; rw [if_neg (by omega), if_neg (by omega)]
  rw [hs]
  induction bs generalizing h with
  | nil => exact ⟨h, [], rfl, rfl, fun _ _ => rfl, fun i hi => absurd hi (by simp)⟩
  | cons rows bs ih =>
    obtain ⟨h2, hrows⟩ := hbs rows (by simp)
    have hn : rows.length ≠ 0 := by omega
    have hb : rows.flatten.length ≠ 0 := by rw [flatten_length_const hrows]; exact Nat.mul_ne_zero hn (by omega)
    have hc : ¬ (rows.length = 1 || !true || d.hasobject) = true := by simp [ho]; omega
    have hbl : (batchLeaf can true shape d rows h : ShmHeap × Except ShmErr (ShmLeaf O)) =
        ({ blocks := Function.update h.blocks h.next (some rows.flatten), next := h.next + 1 },
          .ok (.shm h.next (List.range (d.nbytes (rows.length :: shape))) (rows.length :: shape) d)) := by
      simp only [batchLeaf, hn, if_false]
      rw [if_neg hc, shmMake_ok hcan hb]
    obtain ⟨h', vs, e1, e2, e3, e4⟩ := ih (h := { blocks := Function.update h.blocks h.next (some rows.flatten), next := h.next + 1 })
      (fun r hr => hbs r (by simp [hr]))
    have hfirst : h'.blocks h.next = some rows.flatten := by
      rw [e3 h.next (by show h.next < h.next + 1; omega)]; exact Function.update_self ..
    simp only [readBatches, hbl, deleteLeaf, Bool.false_eq_true, if_false, e1]
    refine ⟨_, _, rfl, ?_, ?_, ?_⟩
    · have e2 : h'.next = h.next + 1 + bs.length := e2
      rw [e2, List.length_cons]; omega
    · intro n hn'
      rw [e3 n (by show n < h.next + 1; omega)]
      exact Function.update_of_ne (by omega) ..
    · intro i hi
      cases i with
      | zero => rw [Nat.add_zero, hfirst]; rfl
      | succ i =>
        have := e4 i (by simp at hi; omega)
        rw [show h.next + (i + 1) = h.next + 1 + i by omega]
        exact this

/-- C83 and C84 are false, values: `ds.batch(b).map(lambda x: x[k:])`, read through worker processes.  If the batch dataset has not
been switched, rows `k`, `k+1`, ... arrive.  If `mp_prefetch` with two or more workers has been called on the batch dataset before
(for another pipeline), the first rows arrive instead. -/
theorem batch_rows_cross (hcan : ∀ n, can n = true) (hh : h.Ok) (numWorkers : Nat) (hw : 2 ≤ numWorkers) (ho : d.hasobject = false)
    (hpos : 0 < d.nbytes shape) (hlen : 2 ≤ rows.length) (hrows : ∀ r ∈ rows, r.length = d.nbytes shape) {k : Nat} (hk : k < rows.length) (minSize : Int) :
    (∃ h' t', batchRowsCross can minSize false k shape d rows h = (h', .ok t') ∧
      t'.map (·.value h') = (.leaf (some (.arr ((rows.length - k) :: shape) d (rows.drop k).flatten)) : Tree (Option (ShmVal O)))) ∧
    (∃ h' t', batchRowsCross can minSize (mpPrefetchInput numWorkers false) k shape d rows h = (h', .ok t') ∧
      t'.map (·.value h') = (.leaf (some (.arr ((rows.length - k) :: shape) d (rows.take (rows.length - k)).flatten)) : Tree (Option (ShmVal O)))) := by
  have hn : rows.length ≠ 0 := by omega
  have hkb : d.nbytes (k :: shape) = k * d.nbytes shape := by rw [ShmDType.nbytes, ShmDType.nbytes, List.prod_cons, Nat.mul_assoc]
  have hnk : d.nbytes ((rows.length - k) :: shape) = (rows.length - k) * d.nbytes shape := by
    rw [ShmDType.nbytes, ShmDType.nbytes, List.prod_cons, Nat.mul_assoc]
  have hitem : 0 < d.itemsize := by
    rw [ShmDType.nbytes] at hpos
    exact Nat.pos_of_mul_pos_left hpos
  constructor
  · have hbl : (batchLeaf can false shape d rows h : ShmHeap × Except ShmErr (ShmLeaf O)) =
        (h, .ok (.nd (rows.length :: shape) d rows.flatten true)) := by
      simp only [batchLeaf, hn, if_false]
      simp
    obtain ⟨h', t', e1, e2, _⟩ := element_crosses_partial hcan minSize hh
      (.leaf (.nd ((rows.length - k) :: shape) d (rows.flatten.drop (d.nbytes (k :: shape))) true : ShmLeaf O)) (by
        intro x hx
        simp only [Tree.flatten, List.mem_singleton] at hx
        subst hx
        refine ⟨?_, hitem⟩
        rw [hkb, (flatten_drop_const hrows k).1, flatten_length_const (fun r hr => hrows r (List.mem_of_mem_drop hr)), List.length_drop, hnk])
    refine ⟨h', t', ?_, ?_⟩
    · simp only [batchRowsCross, hbl, rowsFrom, e1]
    · rw [e2, hkb, (flatten_drop_const hrows k).1]
      rfl
  · have hs : mpPrefetchInput numWorkers false = true := by
      simp only [mpPrefetchInput]; rw [if_neg (by omega), if_neg (by omega)]
    have hb : rows.flatten.length ≠ 0 := by rw [flatten_length_const hrows]; exact Nat.mul_ne_zero hn (by omega)
    have hc : ¬ (rows.length = 1 || !true || d.hasobject) = true := by simp [ho]; omega
    have hbl : (batchLeaf can true shape d rows h : ShmHeap × Except ShmErr (ShmLeaf O)) =
        ({ blocks := Function.update h.blocks h.next (some rows.flatten), next := h.next + 1 },
          .ok (.shm h.next (List.range (d.nbytes (rows.length :: shape))) (rows.length :: shape) d)) := by
      simp only [batchLeaf, hn, if_false]
      rw [if_neg hc, shmMake_ok hcan hb]
    obtain ⟨t', e1, e2⟩ := view_crosses (O := O) can minSize
      (h := { blocks := Function.update h.blocks h.next (some rows.flatten), next := h.next + 1 }) (name := h.next) (b := rows.flatten)
      (pos := (List.range (d.nbytes (rows.length :: shape))).drop (d.nbytes (k :: shape))) (shape := (rows.length - k) :: shape) (d := d)
      (Function.update_self ..) (by rw [hnk, flatten_length_const hrows]; exact Nat.mul_le_mul_right _ (by omega))
    refine ⟨{ blocks := Function.update h.blocks h.next (some rows.flatten), next := h.next + 1 }, t', ?_, ?_⟩
    · simp only [batchRowsCross, hs, hbl, rowsFrom]
      exact e1
    · rw [e2, hnk, (flatten_drop_const hrows _).2]

end

/-- The hypotheses of the theorems of C84 hold for a batch of three rows of two int16; without its first row it is `[[3, 4], [5, 6]]`,
but after `mp_prefetch` of the same batch dataset `[[1, 2], [3, 4]]` arrives. -/
example : ∃ h' t', batchRowsCross (fun _ => true) 0 (mpPrefetchInput 2 false) 1 [2] int16 [[1, 0, 2, 0], [3, 0, 4, 0], [5, 0, 6, 0]] ShmHeap.empty =
      (h', .ok t') ∧
    t'.map (·.value h') = (.leaf (some (.arr [2, 2] int16 [1, 0, 2, 0, 3, 0, 4, 0])) : Tree (Option (ShmVal String))) :=
  (batch_rows_cross (fun _ => rfl) (fun _ _ => rfl) 2 (by decide) rfl (by decide) (by decide) (by decide) (by decide) 0).2

end Grain
