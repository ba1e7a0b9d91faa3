import Verif.Packing.Model
/-
The packing iterator yields the rows of the greedily formed batches and resumes exactly, for every packer.
-/
namespace Grain

variable {E R : Type}

/-- Add all elements to a batch. -/
def addAll (pk : Packer E R) : pk.B → List E → Option pk.B
  | b, [] => some b
  | b, e :: es =>
    match pk.tryAdd b e with
    | .ok (some b') => addAll pk b' es
    | _ => none

theorem addAll_append (pk : Packer E R) (es es' : List E) : ∀ b, addAll pk b (es ++ es') = (addAll pk b es).bind (fun b' => addAll pk b' es') := by
  induction es with
  | nil => intro b; rfl
  | cons e es ih =>
    intro b
    simp only [List.cons_append, addAll]
    cases pk.tryAdd b e with
    | error _ => rfl
    | ok o => cases o with
      | none => rfl
      | some b' => exact ih b'

/-- What follows a batch does not fit any more (or is the end of the data). -/
def BatchCloses (pk : Packer E R) (ended : Bool) (b : pk.B) : List E → Prop
  | [] => ended = true
  | e :: _ => pk.tryAdd b e = .ok none ∧ ∃ b1, pk.tryAdd pk.new e = .ok (some b1)

/-- The elements are cut into batches, each as long as possible; `rest` is what follows the last batch that is known to be
complete. -/
def Groups (pk : Packer E R) (ended : Bool) : List (List E) → List E → Prop
  | [], rest => ended = true → rest = []
  | g :: gs, rest =>
    g ≠ [] ∧ (∃ b, addAll pk pk.new g = some b ∧ pk.finish b ≠ [] ∧ BatchCloses pk ended b (gs.flatten ++ rest)) ∧ Groups pk ended gs rest

/-- The rows of a batch. -/
def rowsOf (pk : Packer E R) (g : List E) : List R :=
  match addAll pk pk.new g with
  | some b => pk.finish b
  | none => []

/-- The rows in the order of emission. -/
def emitBatch (order : Nat → List R → List Nat) (c : Nat) (rows : List R) : List R := (order c rows).filterMap (fun i => rows[i]?)

/-- All rows of all batches; `c` rows came before. -/
def packStream (pk : Packer E R) (order : Nat → List R → List Nat) : Nat → List (List E) → List R
  | _, [] => []
  | c, g :: gs => emitBatch order c (rowsOf pk g) ++ packStream pk order (c + (rowsOf pk g).length) gs

/-- The order of emission is a permutation of the rows. -/
def IsOrder (order : Nat → List R → List Nat) : Prop := ∀ c rows, (order c rows).Perm (List.range rows.length)

theorem filterMap_all_some {rows : List R} : ∀ (is : List Nat), (∀ i ∈ is, i < rows.length) →
    (is.filterMap (fun i => rows[i]?)).length = is.length ∧
    ∀ (r : Nat), (is.filterMap (fun i => rows[i]?))[r]? = is[r]?.bind (fun i => rows[i]?) := by
  intro is
  induction is with
  | nil => intro _; exact ⟨rfl, fun r => by simp⟩
  | cons i is ih =>
    intro h
    have hi := h i (by simp)
    obtain ⟨h1, h2⟩ := ih (fun j hj => h j (by simp [hj]))
    rw [List.filterMap_cons, List.getElem?_eq_getElem hi]
    refine ⟨by simp [h1], ?_⟩
    intro r
    cases r with
    | zero => simp [List.getElem?_eq_getElem hi]
    | succ r => simpa using h2 r

theorem emitBatch_spec {order : Nat → List R → List Nat} (hord : IsOrder order) (c : Nat) (rows : List R) :
    (emitBatch order c rows).length = rows.length ∧ (order c rows).length = rows.length ∧
    ∀ r, r < rows.length → ∃ i row, (order c rows)[r]? = some i ∧ rows[i]? = some row ∧ (emitBatch order c rows)[r]? = some row := by
  have hp := hord c rows
  have hl : (order c rows).length = rows.length := by simpa using hp.length_eq
  have hin : ∀ i ∈ order c rows, i < rows.length := fun i hi => by simpa using hp.mem_iff.1 hi
  obtain ⟨h1, h2⟩ := filterMap_all_some _ hin
  refine ⟨by unfold emitBatch; rw [h1, hl], hl, ?_⟩
  intro r hr
  have hi : (order c rows)[r]? = some ((order c rows)[r]'(by omega)) := List.getElem?_eq_getElem (by omega)
  have hb := hin _ (List.mem_of_getElem? hi)
  refine ⟨_, _, hi, List.getElem?_eq_getElem hb, ?_⟩
  unfold emitBatch
  rw [h2, hi]
  simp [List.getElem?_eq_getElem hb]

theorem emitBatch_perm {order : Nat → List R → List Nat} (hord : IsOrder order) (c : Nat) (rows : List R) :
    (emitBatch order c rows).Perm rows := by
  have h := (hord c rows).filterMap (fun i => rows[i]?)
  have key : (List.range rows.length).filterMap (fun i => rows[i]?) = rows := by
    obtain ⟨h1, h2⟩ := filterMap_all_some (rows := rows) (List.range rows.length) (by simp)
    apply List.ext_getElem?
    intro r
    rw [h2]
    by_cases hr : r < rows.length
    · simp [hr]
    · simp [hr]
  rw [key] at h
  exact h

theorem packStream_append (pk : Packer E R) {order : Nat → List R → List Nat} (hord : IsOrder order) (gs gs' : List (List E)) :
    ∀ c, packStream pk order c (gs ++ gs') = packStream pk order c gs ++ packStream pk order (c + (packStream pk order c gs).length) gs' := by
  induction gs with
  | nil => intro c; simp [packStream]
  | cons g gs ih =>
    intro c
    simp only [List.cons_append, packStream, ih, List.append_assoc, List.length_append, (emitBatch_spec hord c _).1, Nat.add_assoc]

theorem Groups.drop {pk : Packer E R} {ended : Bool} {rest : List E} : ∀ {done gs' : List (List E)},
    Groups pk ended (done ++ gs') rest → Groups pk ended gs' rest := by
  intro done
  induction done with
  | nil => intro gs' h; exact h
  | cons g done ih => intro gs' h; exact ih h.2.2

section sim
variable {pk : Packer E R} {order : Nat → List R → List Nat} {p : Iter E} {ended : Bool}

/-- Row `r` of the first of the batches `gs'` is next. -/
def RowNext (pk : Packer E R) (gs' : List (List E)) (r : Nat) : Prop :=
  match gs' with
  | [] => r = 0
  | g :: _ => r < (rowsOf pk g).length

/-- Nothing packed; the elements `mid` have been read and added since the last finished batch. -/
def PackIdle (pk : Packer E R) (rest : List E) (pAt : p.S → Nat → Prop) (done gs' : List (List E)) (s : PackState pk.B R p.S p.C) : Prop :=
  s.packed = none ∧ ∃ mid after, gs'.flatten ++ rest = mid ++ after ∧ mid.length ≤ 1 ∧
    pAt s.parent (done.flatten.length + mid.length) ∧
    ((mid = [] ∧ s.current = none) ∨ (mid ≠ [] ∧ ∃ b, s.current = some b ∧ addAll pk pk.new mid = some b))

/-- The batch `g` is packed. -/
def PackFull (pk : Packer E R) (order : Nat → List R → List Nat) (rest : List E) (pAt : p.S → Nat → Prop) (pCk : p.C → Nat → Prop)
    (done : List (List E)) (g : List E) (gs' : List (List E)) (c : Nat) (s : PackState pk.B R p.S p.C) : Prop :=
  s.packed = some (rowsOf pk g, order c (rowsOf pk g)) ∧
  (∃ cp, s.curParent = some cp ∧ pCk cp (done.flatten.length + g.length)) ∧
  ((gs'.flatten ++ rest = [] ∧ s.current = none ∧ pAt s.parent (done.flatten.length + g.length)) ∨
   (∃ e after b1, gs'.flatten ++ rest = e :: after ∧ pk.tryAdd pk.new e = .ok (some b1) ∧ s.current = some b1 ∧
     pAt s.parent (done.flatten.length + g.length + 1)))

def PackAt (pk : Packer E R) (order : Nat → List R → List Nat) (gs : List (List E)) (rest : List E) (pAt : p.S → Nat → Prop)
    (pCk : p.C → Nat → Prop) (s : PackState pk.B R p.S p.C) (n : Nat) : Prop :=
  ∃ done gs' r, gs = done ++ gs' ∧ n = (packStream pk order 0 done).length + r ∧ s.counter = n ∧ s.nextRow = r ∧
    pCk s.lastParent done.flatten.length ∧ RowNext pk gs' r ∧
    (PackIdle pk rest pAt done gs' s ∨
     ∃ g gs'', gs' = g :: gs'' ∧ PackFull pk order rest pAt pCk done g gs'' (packStream pk order 0 done).length s)

def PackCk (pk : Packer E R) (order : Nat → List R → List Nat) (gs : List (List E)) (pCk : p.C → Nat → Prop) (c : p.C × Nat × Nat) (n : Nat) : Prop :=
  ∃ done gs' r, gs = done ++ gs' ∧ n = (packStream pk order 0 done).length + r ∧ c.2 = (r, n) ∧ pCk c.1 done.flatten.length ∧
    RowNext pk gs' r

/-- Reading the rest of a batch. -/
theorem packLoop_batch {es : List E} {pAt : p.S → Nat → Prop} {pCk : p.C → Nat → Prop} (hp : Sim p (es.map Except.ok) ended pAt pCk)
    {g : List E} {bg : pk.B} (hbg : addAll pk pk.new g = some bg) {done : List (List E)} {follow : List E}
    (hes : es = done.flatten ++ g ++ follow) (hcl : BatchCloses pk ended bg follow) (hgne : g ≠ []) :
    ∀ (mid2 mid : List E) (s : PackState pk.B R p.S p.C), g = mid ++ mid2 → pAt s.parent (done.flatten.length + mid.length) →
      ((mid = [] ∧ s.current = none) ∨ (mid ≠ [] ∧ ∃ b, s.current = some b ∧ addAll pk pk.new mid = some b)) →
      ∃ s0, (∃ k, ∀ F, k ≤ F → ∀ n, mid2.length + 1 ≤ n → packLoop pk order p F n s =
          some (packEmit s0 (rowsOf pk g) (order (s.counter - s.nextRow) (rowsOf pk g)))) ∧
        s0.counter = s.counter ∧ s0.nextRow = s.nextRow ∧ s0.lastParent = s.lastParent ∧
        s0.packed = some (rowsOf pk g, order (s.counter - s.nextRow) (rowsOf pk g)) ∧
        (∃ cp, s0.curParent = some cp ∧ pCk cp (done.flatten.length + g.length)) ∧
        ((follow = [] ∧ s0.current = none ∧ pAt s0.parent (done.flatten.length + g.length)) ∨
         (∃ e after b1, follow = e :: after ∧ pk.tryAdd pk.new e = .ok (some b1) ∧ s0.current = some b1 ∧
           pAt s0.parent (done.flatten.length + g.length + 1))) := by
  have hrows : rowsOf pk g = pk.finish bg := by simp [rowsOf, hbg]
  intro mid2
  induction mid2 with
  | nil =>
    intro mid s hg hat hcur
    rw [List.append_nil] at hg
    subst hg
    rcases hcur with ⟨h, _⟩ | ⟨_, b, hb, hadd⟩
    · exact absurd h hgne
    rw [hbg] at hadd
    cases hadd
    obtain ⟨hg1, hg2⟩ := hp.get hat
    cases hfo : follow with
    | nil =>
      rw [hfo] at hcl
      have hlen : done.flatten.length + g.length = (es.map (Except.ok (ε := Err))).length := by
        rw [hes, hfo, List.length_map]; simp
      rw [hlen] at hg1
      obtain ⟨ps', ⟨k, hk⟩, hat'⟩ := hp.next_stop hg1 hcl
      refine ⟨{ s with parent := ps', packed := some (rowsOf pk g, order (s.counter - s.nextRow) (rowsOf pk g)), current := none,
                       curParent := some (p.get s.parent).2 }, ⟨k, ?_⟩, rfl, rfl, rfl, rfl, ⟨_, rfl, hg2⟩, Or.inl ⟨rfl, rfl, ?_⟩⟩
      · intro F hF n hn
        obtain ⟨n, rfl⟩ : ∃ m, n = m + 1 := ⟨n - 1, by simp at hn; omega⟩
        simp only [packLoop, hk F hF, Option.bind_eq_bind, Option.bind_some, hb, packFinalize, hrows]
      · rw [hlen]; exact hat'
    | cons e after =>
      rw [hfo] at hcl
      obtain ⟨hno, b1, hb1⟩ := hcl
      have hget : (es.map (Except.ok (ε := Err)))[done.flatten.length + g.length]? = some (.ok e) := by
        rw [hes, hfo, List.getElem?_map, List.getElem?_append_right (by simp)]
        simp
      obtain ⟨ps', ⟨k, hk⟩, hat'⟩ := hp.next_item hg1 hget
      refine ⟨{ s with parent := ps', packed := some (rowsOf pk g, order (s.counter - s.nextRow) (rowsOf pk g)), current := some b1,
                       curParent := some (p.get s.parent).2 }, ⟨k, ?_⟩, rfl, rfl, rfl, rfl, ⟨_, rfl, hg2⟩,
        Or.inr ⟨e, after, b1, rfl, hb1, rfl, hat'⟩⟩
      intro F hF n hn
      obtain ⟨n, rfl⟩ : ∃ m, n = m + 1 := ⟨n - 1, by simp at hn; omega⟩
      have h1 := hk F hF
      simp only [toRes] at h1
      simp only [packLoop, h1, Option.bind_eq_bind, Option.bind_some, hb, Option.getD_some, hno, hb1, packFinalize, hrows]
  | cons e mid2 ih =>
    intro mid s hg hat hcur
    obtain ⟨hg1, hg2⟩ := hp.get hat
    have hget : (es.map (Except.ok (ε := Err)))[done.flatten.length + mid.length]? = some (.ok e) := by
      rw [hes, hg, List.getElem?_map, List.append_assoc, List.getElem?_append_right (by simp)]
      simp
    obtain ⟨ps', ⟨k, hk⟩, hat'⟩ := hp.next_item hg1 hget
    obtain ⟨bm, hbm, hcd⟩ : ∃ bm, addAll pk pk.new mid = some bm ∧ s.current.getD pk.new = bm := by
      rcases hcur with ⟨h1, h2⟩ | ⟨_, b, h1, h2⟩
      · exact ⟨pk.new, by rw [h1]; rfl, by rw [h2]; rfl⟩
      · exact ⟨b, h2, by rw [h1]; rfl⟩
    have hadd := hbg
    rw [hg, addAll_append, hbm] at hadd
    simp only [Option.bind_some, addAll] at hadd
    cases hte : pk.tryAdd bm e with
    | error _ => rw [hte] at hadd; cases hadd
    | ok o =>
      cases o with
      | none => rw [hte] at hadd; cases hadd
      | some b' =>
        obtain ⟨s0, ⟨k2, hk2⟩, h⟩ := ih (mid ++ [e]) { s with parent := ps', current := some b' } (by rw [hg]; simp)
          (by rw [List.length_append, List.length_singleton, ← Nat.add_assoc]; exact hat')
          (Or.inr ⟨by simp, b', rfl, by rw [addAll_append, hbm]; simp [addAll, hte]⟩)
        refine ⟨s0, ⟨max k k2, ?_⟩, h⟩
        intro F hF n hn
        obtain ⟨n, rfl⟩ : ∃ m, n = m + 1 := ⟨n - 1, by simp at hn; omega⟩
        have h1 := hk F (by omega)
        simp only [toRes] at h1
        simp only [packLoop, h1, Option.bind_eq_bind, Option.bind_some, hcd, hte]
        exact hk2 F (by omega) n (by simp at hn; omega)

/-- Emitting row `r` of a packed batch. -/
theorem packEmit_row (hord : IsOrder order) {gs done gs' : List (List E)} {g rest : List E} {pAt : p.S → Nat → Prop} {pCk : p.C → Nat → Prop}
    (hgs : gs = done ++ g :: gs') (hG : Groups pk ended (g :: gs') rest) {s : PackState pk.B R p.S p.C} {r : Nat}
    (hr : r < (rowsOf pk g).length) (hnr : s.nextRow = r) (hc : s.counter = (packStream pk order 0 done).length + r)
    (hlast : pCk s.lastParent done.flatten.length) (hfull : PackFull pk order rest pAt pCk done g gs' (packStream pk order 0 done).length s)
    {y : Py R} (hy : ((packStream pk order 0 gs).map (Except.ok (ε := Err)))[(packStream pk order 0 done).length + r]? = some y) :
    ∃ s', packEmit s (rowsOf pk g) (order (packStream pk order 0 done).length (rowsOf pk g)) = (s', toRes y) ∧
      PackAt pk order gs rest pAt pCk s' ((packStream pk order 0 done).length + r + 1) := by
  obtain ⟨f1, ⟨cp, f2, f3⟩, f4⟩ := hfull
  obtain ⟨e1, e2, e3⟩ := emitBatch_spec hord (packStream pk order 0 done).length (rowsOf pk g)
  obtain ⟨i, row, i1, i2, i3⟩ := e3 r hr
  have hyr : y = .ok row := by
    have h0 : packStream pk order 0 gs = packStream pk order 0 done ++ (emitBatch order (packStream pk order 0 done).length (rowsOf pk g) ++
        packStream pk order ((packStream pk order 0 done).length + (rowsOf pk g).length) gs') := by
      rw [hgs, packStream_append pk hord, Nat.zero_add]; rfl
    rw [h0, List.getElem?_map, List.getElem?_append_right (by omega), Nat.add_sub_cancel_left, List.getElem?_append_left (by omega), i3] at hy
    exact (Option.some.inj hy).symm
  subst hyr
  unfold packEmit
  rw [hnr, i1]
  simp only [i2]
  by_cases hlastrow : r + 1 ≥ (rowsOf pk g).length
  · rw [if_pos hlastrow]
    refine ⟨_, rfl, done ++ [g], gs', 0, by rw [hgs]; simp, ?_, ?_, rfl, ?_, ?_, Or.inl ⟨rfl, ?_⟩⟩
    · rw [packStream_append pk hord]
      simp only [packStream, List.append_nil, List.length_append, Nat.zero_add, e1]
      omega
    · show s.counter + 1 = _
      omega
    · show pCk (s.curParent.getD s.lastParent) _
      rw [f2]
      simpa using f3
    · cases gs' with
      | nil => rfl
      | cons g2 gs2 =>
        obtain ⟨_, ⟨b, hb, hne, _⟩, _⟩ := hG.2.2
        simp only [RowNext, rowsOf, hb]
        exact List.length_pos_iff.2 hne
    · rcases f4 with ⟨a1, a2, a3⟩ | ⟨e, after, b1, a1, a2, a3, a4⟩
      · exact ⟨[], [], a1, by simp, by simpa using a3, Or.inl ⟨rfl, a2⟩⟩
      · exact ⟨[e], after, a1, by simp, by simpa [Nat.add_assoc] using a4, Or.inr ⟨by simp, b1, a3, by simp [addAll, a2]⟩⟩
  · rw [if_neg hlastrow]
    refine ⟨_, rfl, done, g :: gs', r + 1, hgs, by omega, ?_, by simp, hlast, by simp only [RowNext]; omega,
      Or.inr ⟨g, gs', rfl, f1, ⟨cp, f2, f3⟩, f4⟩⟩
    show s.counter + 1 = _
    omega

theorem packIter_sim (hord : IsOrder order) {es : List E} {gs : List (List E)} {rest : List E} {pAt : p.S → Nat → Prop} {pCk : p.C → Nat → Prop}
    (hp : Sim p (es.map Except.ok) ended pAt pCk) (hes : es = gs.flatten ++ rest) (hG : Groups pk ended gs rest) :
    Sim (packIter pk order p) ((packStream pk order 0 gs).map Except.ok) ended (PackAt pk order gs rest pAt pCk)
      (PackCk pk order gs pCk) := by
  have rowsPos : ∀ {done g gs'}, gs = done ++ g :: gs' → 0 < (rowsOf pk g).length := by
    intro done g gs' h
    rw [h] at hG
    obtain ⟨_, ⟨b, hb, hne, _⟩, _⟩ := hG.drop
    simp only [rowsOf, hb]
    exact List.length_pos_iff.2 hne
  have bound : ∀ {done gs' r}, gs = done ++ gs' → RowNext pk gs' r →
      (packStream pk order 0 done).length + r ≤ (packStream pk order 0 gs).length ∧
      ((packStream pk order 0 done).length + r = (packStream pk order 0 gs).length → gs' = []) := by
    intro done gs' r h hr
    rw [h, packStream_append pk hord, List.length_append]
    cases gs' with
    | nil => simp only [RowNext] at hr; subst hr; simp [packStream]
    | cons g gs' =>
      simp only [RowNext] at hr
      simp only [packStream, List.length_append, (emitBatch_spec hord _ _).1]
      exact ⟨by omega, fun hh => by omega⟩
  refine { init := ?_, bound := ?_, next_item := ?_, next_stop := ?_, get := ?_, set := ?_, ck_bound := ?_ }
  · obtain ⟨h1, h2⟩ := hp.get hp.init
    refine ⟨[], gs, 0, rfl, rfl, rfl, rfl, h2, ?_, Or.inl ⟨rfl, [], gs.flatten ++ rest, rfl, by simp, h1, Or.inl ⟨rfl, rfl⟩⟩⟩
    cases gs with
    | nil => rfl
    | cons g gs' => exact rowsPos (done := []) rfl
  · rintro s n ⟨done, gs', r, h1, h2, _, _, _, h6, _⟩
    rw [List.length_map, h2]
    exact (bound h1 h6).1
  · rintro s n y ⟨done, gs', r, h1, h2, h3, h4, h5, h6, h7⟩ hy
    have hlt : n < (packStream pk order 0 gs).length := by
      have := (List.getElem?_eq_some_iff.1 hy).1
      simpa using this
    cases hgs' : gs' with
    | nil =>
      subst hgs'
      rw [List.append_nil] at h1
      simp only [RowNext] at h6
      rw [h1] at hlt
      omega
    | cons g gs'' =>
      subst hgs'
      have hG' : Groups pk ended (g :: gs'') rest := by rw [h1] at hG; exact hG.drop
      simp only [RowNext] at h6
      rw [h2] at hy
      rcases h7 with ⟨i1, mid, after, i2, i3, i4, i5⟩ | ⟨g', gs3, j1, j2⟩
      · -- idle
        obtain ⟨hgne, ⟨bg, hbg, _, hcl⟩, _⟩ := hG'
        have hmid : ∃ mid2, g = mid ++ mid2 := by
          cases mid with
          | nil => exact ⟨g, rfl⟩
          | cons e mid =>
            have : mid = [] := by
              cases mid with
              | nil => rfl
              | cons _ _ => simp at i3
            subst this
            cases g with
            | nil => exact absurd rfl hgne
            | cons e' g =>
              simp only [List.flatten_cons, List.cons_append, List.cons.injEq] at i2
              exact ⟨g, by rw [i2.1]; rfl⟩
        obtain ⟨mid2, hm⟩ := hmid
        obtain ⟨s0, ⟨k, hk⟩, a1, a2, a3, a4, a5, a6⟩ := packLoop_batch (order := order) hp hbg (done := done) (follow := gs''.flatten ++ rest)
          (by rw [hes, h1]; simp) hcl hgne mid2 mid s hm i4 i5
        have hcr : s.counter - s.nextRow = (packStream pk order 0 done).length := by omega
        rw [hcr] at hk a4
        obtain ⟨s', hs', hat⟩ := packEmit_row hord h1 (by rw [h1] at hG; exact hG.drop) (s := s0) h6 (by omega) (by omega)
          (by rw [a3]; exact h5) ⟨a4, a5, a6⟩ hy
        refine ⟨s', ⟨max k (mid2.length + 1), ?_⟩, by rw [h2]; exact hat⟩
        intro F hF
        simp only [packIter, i1]
        rw [hk F (by omega) F (by omega), hs']
      · cases j1
        obtain ⟨s', hs', hat⟩ := packEmit_row hord h1 hG' (s := s) h6 h4 (by omega) h5 j2 hy
        refine ⟨s', Ev.of_forall ?_, by rw [h2]; exact hat⟩
        intro F
        simp only [packIter, j2.1]
        rw [hs']
  · rintro s ⟨done, gs', r, h1, h2, h3, h4, h5, h6, h7⟩ hend
    rw [List.length_map] at h2
    have hnil := (bound h1 h6).2 h2.symm
    subst hnil
    have hrest : rest = [] := by
      rw [h1] at hG
      exact hG.drop hend
    obtain ⟨i1, mid, after, i2, i3, i4, i5⟩ : PackIdle pk rest pAt done [] s := by
      rcases h7 with h7 | ⟨g', gs3, j1, _⟩
      · exact h7
      · cases j1
    rw [hrest] at i2
    have hmid : mid = [] := by
      cases mid with
      | nil => rfl
      | cons _ _ => simp at i2
    subst hmid
    replace i5 : s.current = none := by
      rcases i5 with ⟨_, i5⟩ | ⟨hh, _⟩
      · exact i5
      · exact absurd rfl hh
    obtain ⟨g1, g2⟩ := hp.get i4
    have hlen : done.flatten.length + ([] : List E).length = (es.map (Except.ok (ε := Err))).length := by
      rw [hes, hrest, h1, List.length_map]; simp
    rw [hlen] at g1
    obtain ⟨ps', ⟨k, hk⟩, hat'⟩ := hp.next_stop g1 hend
    refine ⟨{ s with parent := ps' }, ⟨max k 1, ?_⟩, done, [], r, h1, by rw [List.length_map]; exact h2, h3, h4, h5, h6,
      Or.inl ⟨i1, [], [], by simp [hrest], by simp, by rw [hlen]; exact hat', Or.inl ⟨rfl, i5⟩⟩⟩
    intro F hF
    obtain ⟨F, rfl⟩ : ∃ m, F = m + 1 := ⟨F - 1, by omega⟩
    simp only [packIter, i1, packLoop, hk (F + 1) (by omega), Option.bind_eq_bind, Option.bind_some, i5]
  · rintro s n ⟨done, gs', r, h1, h2, h3, h4, h5, h6, h7⟩
    exact ⟨⟨done, gs', r, h1, h2, h3, h4, h5, h6, h7⟩, done, gs', r, h1, h2, by simp [packIter, h3, h4], h5, h6⟩
  · rintro s n c m ⟨done, gs', r, h1, h2, h3, h4, h5, h6, h7⟩ ⟨done2, gs2, r2, c1, c2, c3, c4, c5⟩ hm
    have hpat : ∃ q, pAt s.parent q := by
      rcases h7 with ⟨_, mid, _, _, _, i4, _⟩ | ⟨g', gs3, _, _, _, ⟨_, _, j⟩ | ⟨_, _, _, _, _, _, j⟩⟩
      · exact ⟨_, i4⟩
      · exact ⟨_, j⟩
      · exact ⟨_, j⟩
    obtain ⟨q, hq⟩ := hpat
    have hmp : done2.flatten.length < (es.map (Except.ok (ε := Err))).length ∨ ended = true := by
      rcases hm with hm | hm
      · left
        rw [List.length_map] at hm ⊢
        cases gs2 with
        | nil =>
          simp only [RowNext] at c5
          rw [List.append_nil] at c1
          rw [c1] at hm
          omega
        | cons g gs3 =>
          have hG' := hG
          rw [c1] at hG'
          have hne := hG'.drop.1
          have : 0 < g.length := List.length_pos_iff.2 hne
          rw [hes, c1]
          simp only [List.flatten_append, List.flatten_cons, List.length_append]
          omega
      · exact Or.inr hm
    obtain ⟨ps', ⟨k, hk⟩, hat'⟩ := hp.set hq c4 hmp
    obtain ⟨g1, g2⟩ := hp.get hat'
    refine ⟨{ parent := (p.get ps').1, current := none, lastParent := (p.get ps').2, curParent := none, packed := none,
              nextRow := c.2.1, counter := c.2.2 }, ⟨k, ?_⟩, done2, gs2, r2, c1, c2, ?_, ?_, ?_, c5,
      Or.inl ⟨?_, [], gs2.flatten ++ rest, rfl, by simp, ?_, Or.inl ⟨rfl, ?_⟩⟩⟩
    · intro F hF
      simp only [packIter, hk F hF, Option.bind_eq_bind, Option.bind_some]
    · simp [c3]
    · simp [c3]
    · exact g2
    · rfl
    · simpa using g1
    · rfl
  · rintro c m ⟨done, gs', r, h1, h2, _, _, h6⟩
    rw [List.length_map, h2]
    exact (bound h1 h6).1

/-- Elements that fit into an empty batch can be cut into batches. -/
theorem groups_exist (pk : Packer E R) (ended : Bool) (es : List E) (hfit : ∀ e ∈ es, ∃ b, pk.tryAdd pk.new e = .ok (some b))
    (hno : ∀ g b, (∀ e ∈ g, e ∈ es) → addAll pk pk.new g = some b → ∀ e ∈ es, ∃ o, pk.tryAdd b e = .ok o)
    (hfin : ∀ g b, g ≠ [] → (∀ e ∈ g, e ∈ es) → addAll pk pk.new g = some b → pk.finish b ≠ []) :
    ∃ gs rest, es = gs.flatten ++ rest ∧ Groups pk ended gs rest ∧ (ended = true → rest = []) := by
  have key : ∀ (m : Nat) (l : List E), l.length ≤ m → (∀ e ∈ l, e ∈ es) →
      ∀ g b, g ≠ [] → (∀ e ∈ g, e ∈ es) → addAll pk pk.new g = some b →
      ∃ gs rest, g ++ l = gs.flatten ++ rest ∧ Groups pk ended gs rest ∧ (ended = true → rest = []) ∧ (∃ t, gs.flatten ++ rest = g ++ t) := by
    intro m
    induction m with
    | zero =>
      intro l hl hle g b hg hge hb
      have : l = [] := List.length_eq_zero_iff.1 (by omega)
      subst this
      cases ended with
      | true => exact ⟨[g], [], by simp, ⟨hg, ⟨b, hb, hfin g b hg hge hb, rfl⟩, fun _ => rfl⟩, fun _ => rfl, [], by simp⟩
      | false => exact ⟨[], g, by simp, (by intro h; cases h), (by intro h; cases h), [], by simp⟩
    | succ m ih =>
      intro l hl hle g b hg hge hb
      cases l with
      | nil =>
        cases ended with
        | true => exact ⟨[g], [], by simp, ⟨hg, ⟨b, hb, hfin g b hg hge hb, rfl⟩, fun _ => rfl⟩, fun _ => rfl, [], by simp⟩
        | false => exact ⟨[], g, by simp, (by intro h; cases h), (by intro h; cases h), [], by simp⟩
      | cons e l =>
        have he := hle e (by simp)
        obtain ⟨o, ho⟩ := hno g b hge hb e he
        obtain ⟨b1, hb1⟩ := hfit e he
        cases o with
        | some b' =>
          obtain ⟨gs, rest, h1, h2, h3, t, h4⟩ := ih l (by simp at hl; omega) (fun x hx => hle x (by simp [hx])) (g ++ [e]) b' (by simp)
            (by intro x hx; rcases List.mem_append.1 hx with hx | hx
                · exact hge x hx
                · simp at hx; subst hx; exact he)
            (by rw [addAll_append, hb]; simp [addAll, ho])
          exact ⟨gs, rest, by rw [← h1]; simp, h2, h3, e :: t, by rw [h4]; simp⟩
        | none =>
          obtain ⟨gs, rest, h1, h2, h3, t, h4⟩ := ih l (by simp at hl; omega) (fun x hx => hle x (by simp [hx])) [e] b1 (by simp)
            (by intro x hx; simp at hx; subst hx; exact he) (by simp [addAll, hb1])
          refine ⟨g :: gs, rest, ?_, ⟨hg, ⟨b, hb, hfin g b hg hge hb, ?_⟩, h2⟩, h3, e :: l, ?_⟩
          · rw [List.flatten_cons, List.append_assoc, ← h1]; rfl
          · rw [← h1]
            exact ⟨ho, b1, hb1⟩
          · rw [List.flatten_cons, List.append_assoc, ← h1]; rfl
  cases es with
  | nil => exact ⟨[], [], rfl, fun _ => rfl, fun _ => rfl⟩
  | cons e es =>
    obtain ⟨b1, hb1⟩ := hfit e (by simp)
    obtain ⟨gs, rest, h1, h2, h3, _⟩ := key es.length es (Nat.le_refl _) (fun x hx => by simp [hx]) [e] b1 (by simp) (by simp)
      (by simp [addAll, hb1])
    exact ⟨gs, rest, h1, h2, h3⟩

end sim

end Grain
