import Verif.Packing.Choose
import Verif.Iter.Errors
/- Lemmas for C85: packing of a stream with failing elements. -/
namespace Grain

variable {E R : Type}

/-- The packer accepts good examples and raises `ValueError` for the others; `Inv` holds of the batches with at least one example. -/
structure PackerFine (pk : Packer E R) (good : E → Prop) (Inv : pk.B → Prop) : Prop where
  new_ok : ∀ {e}, good e → ∃ b, pk.tryAdd pk.new e = .ok (some b) ∧ Inv b
  add_ok : ∀ {b e}, Inv b → good e → ∃ o, pk.tryAdd b e = .ok o ∧ ∀ b', o = some b' → Inv b'
  bad : ∀ {b e}, ¬ good e → pk.tryAdd b e = .error .valueError
  rows : ∀ {b}, Inv b → pk.finish b ≠ []

/-- What comes out of the packing iterator, with the batch `cur` under construction and `c` rows already out. -/
def packRest (pk : Packer E R) (order : Nat → List R → List Nat) (ended : Bool) : Option pk.B → Nat → List (Py E) → List (Py R)
  | cur, c, [] =>
    match cur with
    | some b => if ended then (emitBatch order c (pk.finish b)).map Except.ok else []
    | none => []
  | cur, c, .error e :: xs => .error e :: packRest pk order ended cur c xs
  | cur, c, .ok a :: xs =>
    match pk.tryAdd (cur.getD pk.new) a with
    | .error e => .error e :: packRest pk order ended (some (cur.getD pk.new)) c xs
    | .ok (some b) => packRest pk order ended (some b) c xs
    | .ok none =>
      (emitBatch order c (pk.finish (cur.getD pk.new))).map Except.ok ++
        (match pk.tryAdd pk.new a with
          | .ok (some b) => packRest pk order ended (some b) (c + (pk.finish (cur.getD pk.new)).length) xs
          | _ => [])

/-- The batch under construction is not an empty one that may be the last. -/
def CurOk (pk : Packer E R) (good : E → Prop) (Inv : pk.B → Prop) (rest : List (Py E)) : Option pk.B → Prop
  | none => (∃ a, .ok a ∈ rest ∧ good a) ∨ ∀ a, .ok a ∈ rest → good a
  | some b => Inv b ∨ (b = pk.new ∧ ∃ a, .ok a ∈ rest ∧ good a)

theorem CurOk.error {pk : Packer E R} {good : E → Prop} {Inv : pk.B → Prop} {e : Err} {xs : List (Py E)} {cur : Option pk.B}
    (h : CurOk pk good Inv (.error e :: xs) cur) : CurOk pk good Inv xs cur := by
  cases cur with
  | none => simpa [CurOk] using h
  | some b => simpa [CurOk] using h

theorem CurOk.bad {pk : Packer E R} {good : E → Prop} {Inv : pk.B → Prop} {a : E} {xs : List (Py E)} {cur : Option pk.B} (ha : ¬ good a)
    (h : CurOk pk good Inv (.ok a :: xs) cur) : CurOk pk good Inv xs (some (cur.getD pk.new)) := by
  cases cur with
  | none =>
    rcases h with ⟨b, hb, hg⟩ | h
    · refine Or.inr ⟨rfl, b, ?_, hg⟩
      rcases List.mem_cons.1 hb with hb | hb
      · cases hb; exact absurd hg ha
      · exact hb
    · exact absurd (h a (by simp)) ha
  | some b0 =>
    rcases h with h | ⟨h, b, hb, hg⟩
    · exact Or.inl h
    · refine Or.inr ⟨h, b, ?_, hg⟩
      rcases List.mem_cons.1 hb with hb | hb
      · cases hb; exact absurd hg ha
      · exact hb

/-- Adding a good example to the batch under construction. -/
theorem CurOk.add {pk : Packer E R} {good : E → Prop} {Inv : pk.B → Prop} (hf : PackerFine pk good Inv) {a : E} {xs rest : List (Py E)} {cur : Option pk.B}
    (ha : good a) (h : CurOk pk good Inv rest cur) :
    (∃ b, pk.tryAdd (cur.getD pk.new) a = .ok (some b) ∧ CurOk pk good Inv xs (some b)) ∨
    (∃ b0 b, cur = some b0 ∧ Inv b0 ∧ pk.tryAdd b0 a = .ok none ∧ pk.tryAdd pk.new a = .ok (some b) ∧ CurOk pk good Inv xs (some b)) := by
  obtain ⟨b1, n1, n2⟩ := hf.new_ok ha
  cases cur with
  | none => exact Or.inl ⟨b1, n1, Or.inl n2⟩
  | some b0 =>
    rcases h with h | ⟨h, _⟩
    · obtain ⟨o, o1, o2⟩ := hf.add_ok h ha
      cases o with
      | none => exact Or.inr ⟨b0, b1, rfl, h, o1, n1, Or.inl n2⟩
      | some b => exact Or.inl ⟨b, o1, Or.inl (o2 b rfl)⟩
    · subst h
      exact Or.inl ⟨b1, n1, Or.inl n2⟩

section
variable {pk : Packer E R} {order : Nat → List R → List Nat} {p : Iter E} {xs : List (Py E)} {ended : Bool} {good : E → Prop} {Inv : pk.B → Prop}
  {At : p.S → Nat → Prop} {Ck : p.C → Nat → Prop}

/-- The outcomes that are still to come. -/
def PackTo (pk : Packer E R) (order : Nat → List R → List Nat) (xs : List (Py E)) (ended : Bool) (good : E → Prop) (Inv : pk.B → Prop)
    (At : p.S → Nat → Prop) (s : PackState pk.B R p.S p.C) (rest : List (Py R)) : Prop :=
  ∃ q, At s.parent q ∧ CurOk pk good Inv (xs.drop q) s.current ∧
    ((s.packed = none ∧ s.nextRow = 0 ∧ rest = packRest pk order ended s.current s.counter (xs.drop q)) ∨
     ∃ c rows, s.packed = some (rows, order c rows) ∧ s.nextRow < rows.length ∧ s.counter = c + s.nextRow ∧
       rest = ((emitBatch order c rows).drop s.nextRow).map Except.ok ++ packRest pk order ended s.current (c + rows.length) (xs.drop q))

theorem packEmit_to (hord : IsOrder order) {s : PackState pk.B R p.S p.C} {q c : Nat} {rows : List R} (hat : At s.parent q)
    (hcur : CurOk pk good Inv (xs.drop q) s.current) (hp : s.packed = some (rows, order c rows)) (hr : s.nextRow < rows.length)
    (hc : s.counter = c + s.nextRow) :
    ∃ row rest' s', ((emitBatch order c rows).drop s.nextRow).map Except.ok ++ packRest pk order ended s.current (c + rows.length) (xs.drop q) =
        .ok row :: rest' ∧ packEmit s rows (order c rows) = (s', .item row) ∧ PackTo pk order xs ended good Inv At s' rest' := by
  obtain ⟨e1, e2, e3⟩ := emitBatch_spec hord c rows
  obtain ⟨i, row, i1, i2, i3⟩ := e3 _ hr
  have hlt : s.nextRow < (emitBatch order c rows).length := by omega
  have hd : (emitBatch order c rows).drop s.nextRow = row :: (emitBatch order c rows).drop (s.nextRow + 1) := by
    rw [drop_cons_of_lt hlt]
    rw [List.getElem?_eq_getElem hlt] at i3
    rw [Option.some.inj i3]
  rw [hd, List.map_cons, List.cons_append]
  have hem : packEmit s rows (order c rows) =
      if s.nextRow + 1 ≥ rows.length then
        ({ s with packed := none, lastParent := s.curParent.getD s.lastParent, curParent := none, nextRow := 0, counter := s.counter + 1 }, .item row)
      else ({ s with nextRow := s.nextRow + 1, counter := s.counter + 1 }, .item row) := by
    unfold packEmit
    rw [i1]
    simp only [i2]
  by_cases hlast : s.nextRow + 1 ≥ rows.length
  · rw [if_pos hlast] at hem
    refine ⟨row, _, _, rfl, hem, q, hat, hcur, Or.inl ⟨rfl, rfl, ?_⟩⟩
    rw [List.drop_eq_nil_of_le (by omega), List.map_nil, List.nil_append]
    show packRest pk order ended s.current (c + rows.length) _ = packRest pk order ended s.current (s.counter + 1) _
    rw [show s.counter + 1 = c + rows.length by omega]
  · rw [if_neg hlast] at hem
    exact ⟨row, _, _, rfl, hem, q, hat, hcur, Or.inr ⟨c, rows, hp, by show s.nextRow + 1 < _; omega, by show s.counter + 1 = c + (s.nextRow + 1); omega, rfl⟩⟩

theorem packLoop_to (hord : IsOrder order) (hf : PackerFine pk good Inv) (h : Sim p xs ended At Ck) {r : Py R} {rest : List (Py R)} :
    ∀ (k q : Nat) (s : PackState pk.B R p.S p.C), xs.length - q = k → At s.parent q → CurOk pk good Inv (xs.drop q) s.current → s.packed = none →
      s.nextRow = 0 → packRest pk order ended s.current s.counter (xs.drop q) = r :: rest →
      ∃ s', Ev (fun F => ∀ n, k + 1 ≤ n → packLoop pk order p F n s = some (s', toRes r)) ∧ PackTo pk order xs ended good Inv At s' rest := by
  intro k
  induction k with
  | zero =>
    intro q s hk hat hcur hp hn hr
    have hb := h.bound hat
    have hq : q = xs.length := by omega
    subst hq
    rw [List.drop_length] at hr hcur
    cases hc : s.current with
    | none => rw [hc] at hr; simp [packRest] at hr
    | some b =>
      rw [hc] at hr hcur
      cases he : ended with
      | false => rw [he] at hr; simp [packRest] at hr
      | true =>
        have hinv : Inv b := by
          rcases hcur with hi | ⟨_, a, ha, _⟩
          · exact hi
          · cases ha
        simp only [packRest, he, if_true] at hr
        have hpos : 0 < (pk.finish b).length := List.length_pos_iff.2 (hf.rows hinv)
        obtain ⟨g1, g2⟩ := h.get hat
        obtain ⟨ps', n1, n2⟩ := h.next_stop g1 he
        obtain ⟨row, rest', s', e1, e2, e3⟩ := packEmit_to (xs := xs) (ended := ended) (good := good) (Inv := Inv) (At := At) (pk := pk) hord (c := s.counter) (rows := pk.finish b)
          (s := { s with parent := ps', current := none, packed := some (pk.finish b, order s.counter (pk.finish b)), curParent := some (p.get s.parent).2 })
          (q := xs.length) n2 (by rw [List.drop_length]; exact Or.inr (by simp)) rfl (by show s.nextRow < _; omega) (by show s.counter = _ + s.nextRow; omega)
        have e1' : (emitBatch order s.counter (pk.finish b)).map Except.ok = Except.ok row :: rest' := by
          rw [← e1, List.drop_length]
          show _ = ((emitBatch order s.counter (pk.finish b)).drop s.nextRow).map Except.ok ++ []
          rw [hn, List.drop_zero, List.append_nil]
        rw [e1'] at hr
        injection hr with h1 h2
        subst h1; subst h2
        refine ⟨s', n1.mono (fun F e n hn' => ?_), he ▸ e3⟩
        obtain ⟨n, rfl⟩ : ∃ m, n = m + 1 := ⟨n - 1, by omega⟩
        simp only [packLoop, e, Option.bind_eq_bind, Option.bind_some, hc, packFinalize, toRes]
        rw [hn, Nat.sub_zero]
        rw [hn] at e2
        exact congrArg some e2
  | succ k ih =>
    intro q s hk hat hcur hp hn hr
    have hlt : q < xs.length := by omega
    obtain ⟨g1, g2⟩ := h.get hat
    have hx : xs[q]? = some xs[q] := List.getElem?_eq_getElem hlt
    obtain ⟨ps', n1, n2⟩ := h.next_item g1 hx
    rw [drop_cons_of_lt hlt] at hr hcur
    cases hxq : xs[q] with
    | error e =>
      rw [hxq] at hr hcur n1
      simp only [packRest] at hr
      injection hr with h1 h2
      subst h1; subst h2
      refine ⟨{ s with parent := ps' }, n1.mono (fun F e' n hn' => ?_), q + 1, n2, hcur.error, Or.inl ⟨hp, hn, rfl⟩⟩
      obtain ⟨n, rfl⟩ : ∃ m, n = m + 1 := ⟨n - 1, by omega⟩
      simp only [toRes] at e' ⊢
      simp only [packLoop, e', Option.bind_eq_bind, Option.bind_some]
    | ok a =>
      rw [hxq] at hr hcur n1
      by_cases ha : good a
      · rcases hcur.add hf ha (xs := xs.drop (q + 1)) with ⟨b, b1, b2⟩ | ⟨b0, b, c1, c2, c3, c4, c5⟩
        · simp only [packRest, b1] at hr
          obtain ⟨s', i1, i2⟩ := ih (q + 1) { s with parent := ps', current := some b } (by omega) n2 b2 hp hn hr
          refine ⟨s', (n1.and i1).mono (fun F e n hn' => ?_), i2⟩
          obtain ⟨n, rfl⟩ : ∃ m, n = m + 1 := ⟨n - 1, by omega⟩
          have e' := e.1
          simp only [toRes] at e'
          simp only [packLoop, e', Option.bind_eq_bind, Option.bind_some, b1]
          exact e.2 n (by omega)
        · rw [c1] at hr
          simp only [packRest, Option.getD_some, c3, c4] at hr
          have hpos : 0 < (pk.finish b0).length := List.length_pos_iff.2 (hf.rows c2)
          obtain ⟨row, rest', s', e1, e2, e3⟩ := packEmit_to (xs := xs) (ended := ended) (good := good) (Inv := Inv) (At := At) (pk := pk) hord (c := s.counter) (rows := pk.finish b0)
            (s := { s with parent := ps', current := some b, packed := some (pk.finish b0, order s.counter (pk.finish b0)), curParent := some (p.get s.parent).2 })
            (q := q + 1) n2 c5 rfl (by show s.nextRow < _; omega) (by show s.counter = _ + s.nextRow; omega)
          have e1' : (emitBatch order s.counter (pk.finish b0)).map Except.ok ++ packRest pk order ended (some b) (s.counter + (pk.finish b0).length) (xs.drop (q + 1)) =
              Except.ok row :: rest' := by
            rw [← e1]
            show _ = ((emitBatch order s.counter (pk.finish b0)).drop s.nextRow).map Except.ok ++ _
            rw [hn, List.drop_zero]
          rw [e1'] at hr
          injection hr with h1 h2
          subst h1; subst h2
          refine ⟨s', n1.mono (fun F e n hn' => ?_), e3⟩
          obtain ⟨n, rfl⟩ : ∃ m, n = m + 1 := ⟨n - 1, by omega⟩
          simp only [toRes] at e ⊢
          simp only [packLoop, e, Option.bind_eq_bind, Option.bind_some, c1, Option.getD_some, c3, c4, packFinalize]
          rw [hn, Nat.sub_zero]
          rw [hn] at e2
          exact congrArg some e2
      · have hb := hf.bad (b := s.current.getD pk.new) ha
        simp only [packRest, hb] at hr
        injection hr with h1 h2
        subst h1; subst h2
        refine ⟨{ s with parent := ps', current := some (s.current.getD pk.new) }, n1.mono (fun F e' n hn' => ?_), q + 1, n2, hcur.bad ha, Or.inl ⟨hp, hn, rfl⟩⟩
        obtain ⟨n, rfl⟩ : ∃ m, n = m + 1 := ⟨n - 1, by omega⟩
        simp only [toRes] at e' ⊢
        simp only [packLoop, e', Option.bind_eq_bind, Option.bind_some, hb]

theorem packLoop_to_end (hf : PackerFine pk good Inv) (hord : IsOrder order) (h : Sim p xs true At Ck) :
    ∀ (k q : Nat) (s : PackState pk.B R p.S p.C), xs.length - q = k → At s.parent q → CurOk pk good Inv (xs.drop q) s.current → s.packed = none →
      s.nextRow = 0 → packRest pk order true s.current s.counter (xs.drop q) = [] →
      ∃ s', Ev (fun F => ∀ n, k + 1 ≤ n → packLoop pk order p F n s = some (s', .stop)) ∧ PackTo pk order xs true good Inv At s' [] := by
  have emit_ne : ∀ c b, Inv b → (emitBatch order c (pk.finish b)).map (Except.ok (ε := Err)) ≠ [] := by
    intro c b hb hc
    have h1 := (emitBatch_spec hord c (pk.finish b)).1
    have h2 : 0 < (pk.finish b).length := List.length_pos_iff.2 (hf.rows hb)
    have h3 := congrArg List.length hc
    rw [List.length_map, List.length_nil] at h3
    omega
  intro k
  cases k with
  | zero =>
    intro q s hk hat hcur hp hn hr
    have hb := h.bound hat
    have hq : q = xs.length := by omega
    subst hq
    cases hc : s.current with
    | some b =>
      rw [List.drop_length] at hr hcur
      rw [hc] at hr hcur
      have hinv : Inv b := by
        rcases hcur with hi | ⟨_, a, ha, _⟩
        · exact hi
        · cases ha
      simp only [packRest, if_true] at hr
      exact absurd hr (emit_ne _ _ hinv)
    | none =>
      obtain ⟨g1, g2⟩ := h.get hat
      obtain ⟨ps', n1, n2⟩ := h.next_stop g1 rfl
      refine ⟨{ s with parent := ps' }, n1.mono (fun F e n hn' => ?_), xs.length, n2, hcur, Or.inl ⟨hp, hn, ?_⟩⟩
      · obtain ⟨n, rfl⟩ : ∃ m, n = m + 1 := ⟨n - 1, by omega⟩
        simp only [packLoop, e, Option.bind_eq_bind, Option.bind_some, hc]
      · exact hr.symm
  | succ k =>
    intro q s hk hat hcur hp hn hr
    exfalso
    -- elements are left, so something comes out
    have key : ∀ (ys : List (Py E)) (cur : Option pk.B) (c : Nat), CurOk pk good Inv ys cur → (ys ≠ [] ∨ ∃ b, cur = some b) → packRest pk order true cur c ys ≠ [] := by
      intro ys
      induction ys with
      | nil =>
        intro cur c hcur hne
        rcases hne with hne | ⟨b, rfl⟩
        · exact absurd rfl hne
        · have hinv : Inv b := by
            rcases hcur with hi | ⟨_, a, ha, _⟩
            · exact hi
            · cases ha
          simp only [packRest, if_true]
          exact emit_ne _ _ hinv
      | cons y ys ih =>
        intro cur c hcur _
        cases y with
        | error e => simp [packRest]
        | ok a =>
          by_cases ha : good a
          · rcases hcur.add hf ha (xs := ys) with ⟨b, b1, b2⟩ | ⟨b0, b, c1, c2, c3, c4, c5⟩
            · simp only [packRest, b1]
              exact ih _ _ b2 (Or.inr ⟨_, rfl⟩)
            · subst c1
              simp only [packRest, Option.getD_some, c3, c4]
              intro hc
              exact emit_ne _ _ c2 (List.append_eq_nil_iff.1 hc).1
          · simp [packRest, hf.bad ha]
    refine key (xs.drop q) s.current s.counter hcur (Or.inl ?_) hr
    intro hc
    have := congrArg List.length hc
    simp at this
    omega

theorem packIter_yields (hord : IsOrder order) (hf : PackerFine pk good Inv) (hp : Resumes p xs ended)
    (hgood : (∃ a, .ok a ∈ xs ∧ good a) ∨ ∀ a, .ok a ∈ xs → good a) :
    YieldsOutcomes (packIter pk order p) (packRest pk order ended none 0 xs) ended := by
  obtain ⟨At, Ck, h⟩ := hp
  refine yields_of_sim (it := packIter pk order p)
    (fun s m => m ≤ (packRest pk order ended none 0 xs).length ∧ PackTo pk order xs ended good Inv At s ((packRest pk order ended none 0 xs).drop m)) ?_ (fun h => h.1) ?_ ?_
  · exact ⟨by omega, 0, (h.get h.init).1, hgood, Or.inl ⟨rfl, rfl, rfl⟩⟩
  · rintro s m r ⟨hm, hto⟩ hr
    have hlt := getElem?_lt hr
    have hd : (packRest pk order ended none 0 xs).drop m = r :: (packRest pk order ended none 0 xs).drop (m + 1) := by
      rw [drop_cons_of_lt hlt]
      rw [List.getElem?_eq_getElem hlt] at hr
      rw [Option.some.inj hr]
    rw [hd] at hto
    obtain ⟨q, t1, t2, ⟨t3, t4, t5⟩ | ⟨c, rows, t3, t4, t5, t6⟩⟩ := hto
    · obtain ⟨s', i1, i2⟩ := packLoop_to hord hf h _ q s rfl t1 t2 t3 t4 t5.symm
      refine ⟨s', (i1.ge (xs.length - q + 1)).mono (fun F e => ?_), hlt, i2⟩
      show (match s.packed with | some (rows, ord) => some (packEmit s rows ord) | none => packLoop pk order p F F s) = _
      rw [t3]
      exact e.2 F e.1
    · obtain ⟨row, rest', s', e1, e2, e3⟩ := packEmit_to (ended := ended) hord t1 t2 t3 t4 t5
      rw [e1] at t6
      injection t6 with h1 h2
      subst h1
      rw [← h2] at e3
      refine ⟨s', Ev.of_forall (fun F => ?_), hlt, e3⟩
      show (match s.packed with | some (rows, ord) => some (packEmit s rows ord) | none => packLoop pk order p F F s) = _
      rw [t3]
      exact congrArg some e2
  · rintro s ⟨hm, hto⟩ he
    subst he
    rw [List.drop_length] at hto
    obtain ⟨q, t1, t2, ⟨t3, t4, t5⟩ | ⟨c, rows, t3, t4, t5, t6⟩⟩ := hto
    · obtain ⟨s', i1, i2⟩ := packLoop_to_end hf hord h _ q s rfl t1 t2 t3 t4 t5.symm
      refine ⟨s', (i1.ge (xs.length - q + 1)).mono (fun F e => ?_), Nat.le_refl _, by rw [List.drop_length]; exact i2⟩
      show (match s.packed with | some (rows, ord) => some (packEmit s rows ord) | none => packLoop pk order p F F s) = _
      rw [t3]
      exact e.2 F e.1
    · exfalso
      have h1 := (emitBatch_spec hord c rows).1
      have h2 := congrArg List.length t6
      rw [List.length_append, List.length_map, List.length_drop, List.length_nil] at h2
      omega

end

/-! ### Failing elements do not matter -/

theorem eq_map_ok_of_failures {l : List (Py α)} (h : failures l = []) : l = (elements l).map Except.ok := by
  induction l with
  | nil => rfl
  | cons x l ih =>
    cases x with
    | error e => simp [failures] at h
    | ok a =>
      have := ih (by simpa [failures] using h)
      show _ = (Except.ok a :: (elements l).map Except.ok : List (Py α))
      rw [← this]

theorem elements_append (l l' : List (Py α)) : elements (l ++ l') = elements l ++ elements l' := List.filterMap_append

theorem elements_map_ok (l : List α) : elements (l.map Except.ok) = l := by
  induction l with
  | nil => rfl
  | cons a l ih => simpa [elements, Except.toOption] using ih

theorem failures_append (l l' : List (Py α)) : failures (l ++ l') = failures l ++ failures l' := List.filterMap_append

theorem failures_map_ok (l : List α) : failures (l.map Except.ok) = [] := by simp [failures]

section
variable {pk : Packer E R} {order : Nat → List R → List Nat} {ended : Bool} {good : E → Prop} {Inv : pk.B → Prop}

open Classical in
theorem packRest_failures (hf : PackerFine pk good Inv) : ∀ (xs : List (Py E)) (cur : Option pk.B) (c : Nat), CurOk pk good Inv xs cur →
    failures (packRest pk order ended cur c xs) = failures (xs.map (fun x => x.bind (fun a => if good a then Except.ok a else .error .valueError))) := by
  intro xs
  induction xs with
  | nil =>
    intro cur c _
    cases cur with
    | none => rfl
    | some b =>
      simp only [packRest]
      cases ended
      · rfl
      · exact failures_map_ok _
  | cons x xs ih =>
    intro cur c hcur
    cases x with
    | error e =>
      have := ih cur c hcur.error
      simp only [packRest, List.map_cons, failures, List.filterMap_cons, Except.bind] at this ⊢
      rw [this]
    | ok a =>
      by_cases ha : good a
      · rcases hcur.add hf ha (xs := xs) with ⟨b, b1, b2⟩ | ⟨b0, b, c1, c2, c3, c4, c5⟩
        · have := ih (some b) c b2
          simp only [packRest, b1, List.map_cons, Except.bind, if_pos ha]
          exact this
        · subst c1
          have := ih (some b) (c + (pk.finish b0).length) c5
          simp only [packRest, Option.getD_some, c3, c4, List.map_cons, Except.bind, if_pos ha]
          rw [failures_append, failures_map_ok, List.nil_append, this]
          rfl
      · have := ih (some (cur.getD pk.new)) c (hcur.bad ha)
        simp only [packRest, hf.bad ha, List.map_cons, Except.bind, if_neg ha]
        simp only [failures, List.filterMap_cons, Except.bind] at this ⊢
        rw [this]

open Classical in
theorem packRest_elements (hf : PackerFine pk good Inv) : ∀ (xs : List (Py E)) (cur cur' : Option pk.B) (c : Nat), CurOk pk good Inv xs cur →
    (cur' = cur ∨ (cur = some pk.new ∧ cur' = none ∧ ∃ a, .ok a ∈ xs ∧ good a)) →
    elements (packRest pk order ended cur c xs) = elements (packRest pk order ended cur' c (((elements xs).filter (fun a => decide (good a))).map Except.ok)) := by
  intro xs
  induction xs with
  | nil =>
    intro cur cur' c _ hc
    rcases hc with rfl | ⟨_, _, a, ha, _⟩
    · rfl
    · cases ha
  | cons x xs ih =>
    intro cur cur' c hcur hc
    have hget : cur'.getD pk.new = cur.getD pk.new := by
      rcases hc with rfl | ⟨rfl, rfl, _⟩ <;> rfl
    cases x with
    | error e =>
      have hc' : cur' = cur ∨ (cur = some pk.new ∧ cur' = none ∧ ∃ a, .ok a ∈ xs ∧ good a) := by
        rcases hc with h | ⟨h1, h2, a, ha, hg⟩
        · exact Or.inl h
        · exact Or.inr ⟨h1, h2, a, by simpa using ha, hg⟩
      exact ih cur cur' c hcur.error hc'
    | ok a =>
      have he : elements (.ok a :: xs) = a :: elements xs := rfl
      by_cases ha : good a
      · rw [he, List.filter_cons_of_pos (by simpa using ha), List.map_cons]
        rcases hcur.add hf ha (xs := xs) with ⟨b, b1, b2⟩ | ⟨b0, b, c1, c2, c3, c4, c5⟩
        · simp only [packRest, hget, b1]
          exact ih _ _ _ b2 (Or.inl rfl)
        · have hg0 : cur.getD pk.new = b0 := by rw [c1]; rfl
          simp only [packRest, hget, hg0, c3, c4]
          rw [elements_append, elements_append, ih _ _ _ c5 (Or.inl rfl)]
      · rw [he, List.filter_cons_of_neg (by simpa using ha)]
        simp only [packRest, hf.bad ha]
        have hb := hcur.bad ha
        refine ih (some (cur.getD pk.new)) cur' c hb ?_
        cases hcc : cur with
        | some b =>
          rcases hc with h | ⟨h1, h2, b, hb, hg⟩
          · exact Or.inl (by rw [h, hcc]; rfl)
          · refine Or.inr ⟨by rw [← hcc, h1]; rfl, h2, b, ?_, hg⟩
            rcases List.mem_cons.1 hb with hb | hb
            · cases hb; exact absurd hg ha
            · exact hb
        | none =>
          rw [hcc] at hcur hc
          have h2 : cur' = none := by
            rcases hc with h | ⟨_, h, _⟩ <;> exact h
          refine Or.inr ⟨rfl, h2, ?_⟩
          rcases hcur with ⟨b, hb, hg⟩ | h
          · refine ⟨b, ?_, hg⟩
            rcases List.mem_cons.1 hb with hb | hb
            · cases hb; exact absurd hg ha
            · exact hb
          · exact absurd (h a (by simp)) ha

end

/-! ### The packers of grain -/

section
variable {τ μ : Type} {cfg : PkCfg τ} {choose : PkCfg τ → List (PkRow τ μ) → Ex τ μ → Option Nat} {ch : List (List (Ex τ μ)) → Ex τ μ → Option Nat → Prop}

theorem tryAdd_bad {rows : List (PkRow τ μ)} {e : Ex τ μ} (he : ¬ FitsEmpty cfg.feats e) : tryAdd choose cfg rows e = .error .valueError := by
  unfold tryAdd
  by_cases hl : e.feats.length = cfg.feats.length
  · rw [if_neg (by simp [hl]), if_pos]
    rw [List.any_eq_true]
    by_contra hc
    apply he
    refine ⟨hl, ?_⟩
    intro i v fc hv hfc
    by_contra hlt
    apply hc
    refine ⟨(fc, v), ?_, by simpa using hlt⟩
    apply List.mem_of_getElem? (i := i)
    simp [List.getElem?_zip_eq_some, hv, hfc]
  · rw [if_pos hl]

theorem packerOf_fine (hch : Chooses cfg choose ch (FitsEmpty cfg.feats)) (ha : ∀ fc ∈ cfg.feats, 0 < fc.align) (hbins : 0 < cfg.bins) (hm : cfg.maxSeq ≠ some 0) :
    PackerFine (packerOf choose cfg) (FitsEmpty cfg.feats)
      (fun b => ∃ g, g ≠ [] ∧ (∀ e ∈ g, FitsEmpty cfg.feats e) ∧ addAll (packerOf choose cfg) (packerOf choose cfg).new g = some b) where
  new_ok := by
    intro e he
    obtain ⟨b, hb⟩ := new_fits hch hbins hm he he
    exact ⟨b, hb, [e], by simp, by simpa using he, by simp [addAll, hb]⟩
  add_ok := by
    rintro b e ⟨g, g1, g2, g3⟩ he
    obtain ⟨a, hinv, _⟩ := addAll_inv hch ha hbins g (fun e he => ⟨g2 e he, g2 e he⟩) b g3
    have ht : (packerOf choose cfg).tryAdd b e = _ := tryAdd_eq (choose := choose) he hinv.1 hbins
    refine ⟨_, ht, ?_⟩
    intro b' hb'
    refine ⟨g ++ [e], by simp, ?_, ?_⟩
    · intro e' he'
      rcases List.mem_append.1 he' with h | h
      · exact g2 e' h
      · rw [List.mem_singleton.1 h]; exact he
    · rw [addAll_append, g3, Option.bind_some]
      rw [hb'] at ht
      simp only [addAll, ht]
  bad := fun he => tryAdd_bad he
  rows := by
    rintro b ⟨g, g1, g2, g3⟩
    obtain ⟨a, hinv, hass, _⟩ := addAll_inv hch ha hbins g (fun e he => ⟨g2 e he, g2 e he⟩) b g3
    refine (hinv.holds ha).2 ?_
    by_contra hc
    have hperm := hass.perm (fun a e r h => by
      obtain ⟨es, hes, _⟩ := hch.fits h
      exact (List.getElem?_eq_some_iff.1 hes).1)
    apply g1
    have hnil : a.flatten = [] := by
      rw [List.flatten_eq_nil_iff]
      intro es hes
      by_contra hne
      exact hc ⟨es, hes, hne⟩
    rw [hnil] at hperm
    exact hperm.nil_eq.symm

end
end Grain
