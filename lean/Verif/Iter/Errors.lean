import Verif.Iter.SpecErrors
import Verif.Iter.FilterBatch
import Verif.Iter.Model
/- Lemmas for C85. -/
namespace Grain

theorem getElem?_drop_cons {l : List α} {q : Nat} {a : α} {t : List α} (h : l.drop q = a :: t) : l[q]? = some a ∧ l.drop (q + 1) = t := by
  have hq : q < l.length := by
    by_contra hc
    rw [List.drop_eq_nil_of_le (by omega)] at h
    cases h
  rw [drop_cons_of_lt hq] at h
  injection h with h1 h2
  exact ⟨by rw [List.getElem?_eq_getElem hq, h1], h2⟩

/-- A simulation for calls of `next` only. -/
theorem yields_of_sim {it : Iter α} {ys : List (Py α)} {ended : Bool} (R : it.S → Nat → Prop) (init : R it.init 0)
    (bound : ∀ {s n}, R s n → n ≤ ys.length)
    (item : ∀ {s n r}, R s n → ys[n]? = some r → ∃ s', Ev (fun F => it.next F s = some (s', toRes r)) ∧ R s' (n + 1))
    (stop : ∀ {s}, R s ys.length → ended = true → ∃ s', Ev (fun F => it.next F s = some (s', .stop)) ∧ R s' ys.length) :
    YieldsOutcomes it ys ended := by
  have key : ∀ k s pos outs, R s pos → specRun ys ended (fun _ => true) pos [] (List.replicate k .next) = some outs →
      Ev (fun F => implRun it F s [] (List.replicate k .next) = some outs) := by
    intro k
    induction k with
    | zero =>
      intro s pos outs _ h
      rw [List.replicate_zero] at h ⊢
      simp only [specRun] at h
      exact Ev.of_forall (fun F => by simpa [implRun] using h)
    | succ k ih =>
      intro s pos outs hat h
      rw [List.replicate_succ] at h ⊢
      simp only [specRun, Option.bind_eq_bind] at h
      cases ho : outcome ys ended pos with
      | none => rw [ho] at h; cases h
      | some r =>
        rw [ho, Option.bind_some] at h
        cases hr : specRun ys ended (fun _ => true) (min ys.length (pos + 1)) [] (List.replicate k .next) with
        | none => rw [hr] at h; cases h
        | some rest =>
          rw [hr, Option.bind_some] at h
          cases h
          have hb := bound hat
          cases hx : ys[pos]? with
          | some q =>
            have hlt : pos < ys.length := getElem?_lt hx
            rw [outcome_lt hx] at ho
            cases ho
            obtain ⟨s', h1, h2⟩ := item hat hx
            rw [Nat.min_eq_right (by omega)] at hr
            have h3 := ih s' (pos + 1) rest h2 hr
            refine h1.mono₂ h3 ?_
            intro F e1 e2
            simp only [implRun, e1, Option.bind_eq_bind, Option.bind_some, e2]
          | none =>
            have hge : ys.length ≤ pos := by
              by_contra hc
              rw [List.getElem?_eq_getElem (by omega)] at hx
              cases hx
            have hpos : pos = ys.length := by omega
            subst hpos
            unfold outcome at ho
            rw [hx] at ho
            cases he : ended with
            | false => simp [he] at ho
            | true =>
              simp [he] at ho
              subst ho
              obtain ⟨s', h1, h2⟩ := stop hat he
              rw [Nat.min_eq_left (by omega)] at hr
              have h3 := ih s' _ rest h2 hr
              refine h1.mono₂ h3 ?_
              intro F e1 e2
              simp only [implRun, e1, Option.bind_eq_bind, Option.bind_some, e2]
  intro n outs h
  exact key n it.init 0 outs init h

theorem ResumesExactly.yields {it : Iter α} {ys : List (Py α)} {ended : Bool} (h : ResumesExactly it ys ended) : YieldsOutcomes it ys ended :=
  fun n outs ho => h _ outs ho

/-! ### batch -/

section
variable {p : Iter α} {xs : List (Py α)} {ended : Bool} {At : p.S → Nat → Prop} {Ck : p.C → Nat → Prop} {b : Nat} {drop : Bool}
  {f : List α → Py β}

/-- One call of `next`, in the middle of the loop. -/
theorem batchLoop_outcome (h : Sim p xs ended At Ck) {r : Py β} {rest : List (Py β)} :
    ∀ (k q : Nat) (s : p.S) (acc : List α) (n : Nat), k = xs.length - q → At s q → acc.length + n = b → 0 < n →
    batchOutcomes b drop f ended acc (xs.drop q) = r :: rest →
    ∃ s' q', At s' q' ∧ batchOutcomes b drop f ended [] (xs.drop q') = rest ∧
      (Ev (fun F => ∃ e, batchLoop p drop F n s acc = some (s', .inr (.fail e)) ∧ r = .error e) ∨
       ∃ vs, vs ≠ [] ∧ r = f vs ∧ Ev (fun F => batchLoop p drop F n s acc = some (s', .inl vs))) := by
  intro k
  induction k with
  | zero =>
    intro q s acc n hk hs hn hpos ho
    have hb := h.bound hs
    have hq : q = xs.length := by omega
    subst hq
    rw [List.drop_length] at ho
    simp only [batchOutcomes] at ho
    split at ho
    · rename_i hc
      injection ho with h1 h2
      obtain ⟨s', e1, e2⟩ := h.next_stop hs hc.1
      refine ⟨s', xs.length, e2, ?_, Or.inr ⟨acc, hc.2.2, h1.symm, e1.mono ?_⟩⟩
      · rw [List.drop_length, ← h2]
        simp [batchOutcomes]
      · intro F e
        obtain ⟨n, rfl⟩ : ∃ m, n = m + 1 := ⟨n - 1, by omega⟩
        simp only [batchLoop, e, Option.bind_eq_bind, Option.bind_some, hc.2.1, Bool.false_eq_true, if_false]
    · cases ho
  | succ k ih =>
    intro q s acc n hk hs hn hpos ho
    have hq : q < xs.length := by omega
    obtain ⟨s1, h1, h2⟩ := h.next_item hs (List.getElem?_eq_getElem hq)
    rw [drop_cons_of_lt hq] at ho
    obtain ⟨n, rfl⟩ : ∃ m, n = m + 1 := ⟨n - 1, by omega⟩
    cases hx : xs[q] with
    | error e =>
      rw [hx] at ho h1
      simp only [batchOutcomes, List.cons.injEq] at ho
      refine ⟨s1, q + 1, h2, ho.2, Or.inl (h1.mono ?_)⟩
      intro F e1
      exact ⟨e, by simp only [batchLoop, e1, Option.bind_eq_bind, Option.bind_some, toRes], ho.1.symm⟩
    | ok a =>
      rw [hx] at ho h1
      simp only [batchOutcomes] at ho
      split at ho
      · rename_i hc
        simp only [List.cons.injEq] at ho
        have hn0 : n = 0 := by omega
        subst hn0
        refine ⟨s1, q + 1, h2, ho.2, Or.inr ⟨acc ++ [a], by simp, ho.1.symm, h1.mono ?_⟩⟩
        intro F e1
        simp only [batchLoop, e1, Option.bind_eq_bind, Option.bind_some, toRes]
      · rename_i hc
        obtain ⟨s', q', i1, i2, i3⟩ := ih (q + 1) s1 (acc ++ [a]) n (by omega) h2 (by simp; omega) (by omega) ho
        refine ⟨s', q', i1, i2, ?_⟩
        rcases i3 with i3 | ⟨vs, v1, v2, v3⟩
        · left
          refine h1.mono₂ i3 ?_
          rintro F e1 ⟨e, e2, e3⟩
          exact ⟨e, by simp only [batchLoop, e1, Option.bind_eq_bind, Option.bind_some, toRes, e2], e3⟩
        · right
          refine ⟨vs, v1, v2, h1.mono₂ v3 ?_⟩
          intro F e1 e2
          simp only [batchLoop, e1, Option.bind_eq_bind, Option.bind_some, toRes, e2]

theorem batchLoop_end (h : Sim p xs true At Ck) :
    ∀ (k q : Nat) (s : p.S) (acc : List α) (n : Nat), k = xs.length - q → At s q → acc.length + n = b → 0 < n →
    batchOutcomes b drop f true acc (xs.drop q) = [] →
    ∃ s', At s' xs.length ∧ Ev (fun F => batchLoop p drop F n s acc = some (s', if drop then .inr .stop else .inl [])) := by
  intro k
  induction k with
  | zero =>
    intro q s acc n hk hs hn hpos ho
    have hb := h.bound hs
    have hq : q = xs.length := by omega
    subst hq
    rw [List.drop_length] at ho
    obtain ⟨s', e1, e2⟩ := h.next_stop hs rfl
    refine ⟨s', e2, e1.mono ?_⟩
    intro F e
    obtain ⟨n, rfl⟩ : ∃ m, n = m + 1 := ⟨n - 1, by omega⟩
    simp only [batchLoop, e, Option.bind_eq_bind, Option.bind_some]
    cases drop with
    | true => rfl
    | false =>
      simp only [batchOutcomes] at ho
      split at ho
      · cases ho
      · rename_i hc
        have : acc = [] := by
          by_contra hne
          exact hc ⟨trivial, trivial, hne⟩
        simp [this]
  | succ k ih =>
    intro q s acc n hk hs hn hpos ho
    have hq : q < xs.length := by omega
    obtain ⟨s1, h1, h2⟩ := h.next_item hs (List.getElem?_eq_getElem hq)
    rw [drop_cons_of_lt hq] at ho
    obtain ⟨n, rfl⟩ : ∃ m, n = m + 1 := ⟨n - 1, by omega⟩
    cases hx : xs[q] with
    | error e => rw [hx] at ho; simp [batchOutcomes] at ho
    | ok a =>
      rw [hx] at ho h1
      simp only [batchOutcomes] at ho
      split at ho
      · cases ho
      · rename_i hc
        obtain ⟨s', i1, i2⟩ := ih (q + 1) s1 (acc ++ [a]) n (by omega) h2 (by simp; omega) (by omega) ho
        refine ⟨s', i1, h1.mono₂ i2 ?_⟩
        intro F e1 e2
        simp only [batchLoop, e1, Option.bind_eq_bind, Option.bind_some, toRes, e2]

theorem batchOutcomes_end (q : Nat) (hq : xs.length ≤ q) :
    batchOutcomes b drop f ended [] (xs.drop q) = [] := by
  rw [List.drop_eq_nil_of_le hq]
  simp [batchOutcomes]

theorem batchIter_resumes_errors (hp : Resumes p xs ended) (hb : 0 < b) :
    Resumes (batchIter b drop f p) (batchOutcomes b drop f ended [] xs) ended := by
  obtain ⟨At, Ck, h⟩ := hp
  let ys := batchOutcomes b drop f ended [] xs
  let Rel : Nat → Nat → Prop := fun q m => m ≤ ys.length ∧ batchOutcomes b drop f ended [] (xs.drop q) = ys.drop m
  refine ⟨fun s m => ∃ q, At s q ∧ Rel q m, fun c m => ∃ q, Ck c q ∧ Rel q m, ?_⟩
  refine { init := ⟨0, h.init, by omega, by simp [ys]⟩, bound := fun ⟨q, _, hm, _⟩ => hm, next_item := ?_,
           next_stop := ?_, get := ?_, set := ?_, ck_bound := fun ⟨q, _, hm, _⟩ => hm }
  · rintro s m r ⟨q, hs, hm, hq⟩ hr
    have hlt : m < ys.length := getElem?_lt hr
    have hd : ys.drop m = r :: ys.drop (m + 1) := by
      rw [drop_cons_of_lt hlt]
      rw [List.getElem?_eq_getElem hlt] at hr
      rw [Option.some.inj hr]
    rw [hd] at hq
    obtain ⟨s', q', i1, i2, i3⟩ := batchLoop_outcome h _ q s [] b rfl hs (by simp) hb hq
    refine ⟨s', ?_, q', i1, by omega, i2⟩
    rcases i3 with i3 | ⟨vs, v1, v2, v3⟩
    · refine i3.mono ?_
      rintro F ⟨e, e1, e2⟩
      simp only [batchIter, e1, Option.bind_eq_bind, Option.bind_some, e2, toRes]
    · refine v3.mono ?_
      intro F e1
      obtain ⟨v, l, rfl⟩ := List.exists_cons_of_ne_nil v1
      simp only [batchIter, e1, Option.bind_eq_bind, Option.bind_some, v2]
      cases f (v :: l) <;> rfl
  · rintro s ⟨q, hs, hm, hq⟩ he
    subst he
    rw [show ys.drop (batchOutcomes b drop f true [] xs).length = [] from List.drop_eq_nil_of_le (by simp [ys])] at hq
    obtain ⟨s', i1, i2⟩ := batchLoop_end h _ q s [] b rfl hs (by simp) hb hq
    refine ⟨s', i2.mono ?_, xs.length, i1, by simp [ys], ?_⟩
    · intro F e1
      simp only [batchIter, e1, Option.bind_eq_bind, Option.bind_some]
      cases drop <;> simp
    · rw [batchOutcomes_end xs.length (Nat.le_refl _), List.drop_eq_nil_of_le (by simp [ys])]
  · rintro s m ⟨q, hs, hm⟩
    exact ⟨⟨q, (h.get hs).1, hm⟩, q, (h.get hs).2, hm⟩
  · rintro s n c m ⟨q, hs, hn⟩ ⟨q', hc, hm⟩ hk
    have hk' : q' < xs.length ∨ ended = true := by
      rcases hk with hk | hk
      · left
        by_contra hcon
        have h2 := hm.2
        rw [batchOutcomes_end q' (by omega), show ys.drop m = _ from drop_cons_of_lt hk] at h2
        cases h2
      · exact Or.inr hk
    obtain ⟨s', h1, h2⟩ := h.set hs hc hk'
    exact ⟨s', h1, q', h2, hm⟩

end

theorem batchStream_cons (b : Nat) (hb : 0 < b) (f : List α → Py β) (g as : List α) (hg : g.length = b) :
    batchStream b true f (g ++ as) true = f g :: batchStream b true f as true := by
  have hc : batchCount (g ++ as).length b true = batchCount as.length b true + 1 := by
    simp only [batchCount, if_true, List.length_append, hg]
    rw [Nat.add_comm, Nat.add_div_right _ hb]
  simp only [batchStream, Bool.true_or, hc, List.range_succ_eq_map, List.map_cons, List.map_map]
  congr 1
  · congr 1
    simp [group, ← hg]
  · apply List.map_congr_left
    intro i _
    simp only [Function.comp, group]
    congr 2
    rw [Nat.succ_mul, Nat.add_comm, ← hg, List.drop_length_add_append]

theorem batchOutcomes_append {b : Nat} (hb : 0 < b) {drop : Bool} {f : List α → Py β} {ended : Bool} (tail : List (Py α)) :
    ∀ (as acc : List α), acc.length < b →
    batchOutcomes b drop f ended acc (as.map Except.ok ++ tail) =
      batchStream b true f (acc ++ as) true ++
        batchOutcomes b drop f ended ((acc ++ as).drop ((acc ++ as).length / b * b)) tail := by
  intro as
  induction as with
  | nil =>
    intro acc hacc
    rw [List.map_nil, List.nil_append, List.append_nil, Nat.div_eq_of_lt hacc, Nat.zero_mul, List.drop_zero]
    simp [batchStream, batchCount, Nat.div_eq_of_lt hacc]
  | cons a as ih =>
    intro acc hacc
    rw [List.map_cons, List.cons_append, batchOutcomes]
    split
    · rename_i hc
      have hg : (acc ++ [a]).length = b := by simpa using hc
      rw [ih [] hb, List.nil_append]
      have e : acc ++ a :: as = (acc ++ [a]) ++ as := by simp
      rw [e, batchStream_cons b hb f _ _ hg, List.cons_append, List.length_append, hg, Nat.add_comm b, Nat.add_div_right _ hb,
        Nat.succ_mul, Nat.add_comm _ b]
      conv_rhs => rw [← hg, List.drop_length_add_append, hg]
    · rename_i hc
      rw [ih (acc ++ [a]) (by simp; omega)]
      simp

/-! ### flat_map -/

section
variable {p : Iter α} {xs : List (Py α)} {ended : Bool} {At : p.S → Nat → Prop} {Ck : p.C → Nat → Prop} {g : α → List β} {f : α → Py (List β)}

/-- What a state of `flat_map` has still to yield. -/
def flatRest (g : α → List β) (xs : List (Py α)) (buf : List β) (idx q : Nat) : List (Py β) :=
  (buf.drop idx).map Except.ok ++ flatMapOutcomes g (xs.drop q)

theorem flatMapLoop_outcome (h : Sim p xs ended At Ck) (hf : ∀ a ∈ elements xs, f a = .ok (g a)) {r : Py β} {rest : List (Py β)} :
    ∀ (k q : Nat) (s : FlatMapState p.S p.C β), k = xs.length - q → At s.ps q → flatRest g xs s.buf s.idx q = r :: rest →
    ∃ s' q', Ev (fun F => ∀ n, k + 1 ≤ n → flatMapLoop p f F n s = some (s', toRes r)) ∧ At s'.ps q' ∧ flatRest g xs s'.buf s'.idx q' = rest := by
  intro k
  induction k with
  | zero =>
    intro q s hk hs ho
    cases hb : s.buf[s.idx]? with
    | some v =>
      have hlt := getElem?_lt hb
      have hd : s.buf.drop s.idx = v :: s.buf.drop (s.idx + 1) := by
        rw [drop_cons_of_lt hlt]
        rw [List.getElem?_eq_getElem hlt] at hb
        rw [Option.some.inj hb]
      simp only [flatRest, hd, List.map_cons, List.cons_append, List.cons.injEq] at ho
      refine ⟨{ s with idx := s.idx + 1 }, q, Ev.of_forall ?_, hs, ho.2⟩
      intro F n hn
      obtain ⟨n, rfl⟩ : ∃ m, n = m + 1 := ⟨n - 1, by omega⟩
      simp only [flatMapLoop, hb, ← ho.1, toRes]
    | none =>
      have hge : s.buf.length ≤ s.idx := by
        by_contra hc
        rw [List.getElem?_eq_getElem (by omega)] at hb
        cases hb
      rw [flatRest, List.drop_eq_nil_of_le hge, List.drop_eq_nil_of_le (by omega : xs.length ≤ q)] at ho
      simp [flatMapOutcomes] at ho
  | succ k ih =>
    intro q s hk hs ho
    cases hb : s.buf[s.idx]? with
    | some v =>
      have hlt := getElem?_lt hb
      have hd : s.buf.drop s.idx = v :: s.buf.drop (s.idx + 1) := by
        rw [drop_cons_of_lt hlt]
        rw [List.getElem?_eq_getElem hlt] at hb
        rw [Option.some.inj hb]
      simp only [flatRest, hd, List.map_cons, List.cons_append, List.cons.injEq] at ho
      refine ⟨{ s with idx := s.idx + 1 }, q, Ev.of_forall ?_, hs, ho.2⟩
      intro F n hn
      obtain ⟨n, rfl⟩ : ∃ m, n = m + 1 := ⟨n - 1, by omega⟩
      simp only [flatMapLoop, hb, ← ho.1, toRes]
    | none =>
      have hge : s.buf.length ≤ s.idx := by
        by_contra hc
        rw [List.getElem?_eq_getElem (by omega)] at hb
        cases hb
      have hq : q < xs.length := by omega
      have hg := h.get hs
      obtain ⟨s1, h1, h2⟩ := h.next_item hg.1 (List.getElem?_eq_getElem hq)
      rw [flatRest, List.drop_eq_nil_of_le hge, List.map_nil, List.nil_append, drop_cons_of_lt hq, flatMapOutcomes, List.flatMap_cons] at ho
      cases hx : xs[q] with
      | error e =>
        rw [hx] at ho h1
        simp only [List.singleton_append, List.cons.injEq] at ho
        refine ⟨{ s with ps := s1, last := (p.get s.ps).2 }, q + 1, h1.mono ?_, h2, ?_⟩
        · intro F e1 n hn
          obtain ⟨n, rfl⟩ : ∃ m, n = m + 1 := ⟨n - 1, by omega⟩
          simp only [flatMapLoop, hb, e1, Option.bind_eq_bind, Option.bind_some, ← ho.1, toRes]
        · rw [flatRest, List.drop_eq_nil_of_le hge, List.map_nil, List.nil_append]
          exact ho.2
      | ok a =>
        have ha : f a = .ok (g a) := hf a (by
          rw [elements, List.mem_filterMap]
          exact ⟨.ok a, by rw [← hx]; exact List.getElem_mem hq, rfl⟩)
        rw [hx] at ho h1
        obtain ⟨s', q', i1, i2, i3⟩ := ih (q + 1) { s with ps := s1, last := (p.get s.ps).2, idx := 0, buf := g a } (by omega) h2 (by
          rw [flatRest, List.drop_zero]; exact ho)
        refine ⟨s', q', h1.mono₂ i1 ?_, i2, i3⟩
        intro F e1 e2 n hn
        obtain ⟨n, rfl⟩ : ∃ m, n = m + 1 := ⟨n - 1, by omega⟩
        simp only [flatMapLoop, hb, e1, Option.bind_eq_bind, Option.bind_some, toRes, ha]
        exact e2 n (by omega)

theorem flatMapLoop_end (h : Sim p xs true At Ck) (hf : ∀ a ∈ elements xs, f a = .ok (g a)) :
    ∀ (k q : Nat) (s : FlatMapState p.S p.C β), k = xs.length - q → At s.ps q → flatRest g xs s.buf s.idx q = [] →
    ∃ s', Ev (fun F => ∀ n, k + 1 ≤ n → flatMapLoop p f F n s = some (s', .stop)) ∧ At s'.ps xs.length ∧ flatRest g xs s'.buf s'.idx xs.length = [] := by
  intro k
  induction k with
  | zero =>
    intro q s hk hs ho
    have hq : q = xs.length := by have := h.bound hs; omega
    subst hq
    have hge : s.buf.length ≤ s.idx := by
      by_contra hc
      simp [flatRest] at ho
      omega
    have hb : s.buf[s.idx]? = none := List.getElem?_eq_none hge
    obtain ⟨s1, h1, h2⟩ := h.next_stop (h.get hs).1 rfl
    refine ⟨{ s with ps := s1, last := (p.get s.ps).2 }, h1.mono ?_, h2, ho⟩
    intro F e1 n hn
    obtain ⟨n, rfl⟩ : ∃ m, n = m + 1 := ⟨n - 1, by omega⟩
    simp only [flatMapLoop, hb, e1, Option.bind_eq_bind, Option.bind_some]
  | succ k ih =>
    intro q s hk hs ho
    have hge : s.buf.length ≤ s.idx := by
      by_contra hc
      simp [flatRest] at ho
      omega
    have hb : s.buf[s.idx]? = none := List.getElem?_eq_none hge
    have hq : q < xs.length := by omega
    obtain ⟨s1, h1, h2⟩ := h.next_item (h.get hs).1 (List.getElem?_eq_getElem hq)
    rw [flatRest, List.drop_eq_nil_of_le hge, List.map_nil, List.nil_append, drop_cons_of_lt hq, flatMapOutcomes, List.flatMap_cons] at ho
    cases hx : xs[q] with
    | error e => rw [hx] at ho; simp at ho
    | ok a =>
      have ha : f a = .ok (g a) := hf a (by
        rw [elements, List.mem_filterMap]
        exact ⟨.ok a, by rw [← hx]; exact List.getElem_mem hq, rfl⟩)
      rw [hx] at ho h1
      obtain ⟨s', i1, i2, i3⟩ := ih (q + 1) { s with ps := s1, last := (p.get s.ps).2, idx := 0, buf := g a } (by omega) h2 (by
        rw [flatRest, List.drop_zero]; exact ho)
      refine ⟨s', h1.mono₂ i1 ?_, i2, i3⟩
      intro F e1 e2 n hn
      obtain ⟨n, rfl⟩ : ∃ m, n = m + 1 := ⟨n - 1, by omega⟩
      simp only [flatMapLoop, hb, e1, Option.bind_eq_bind, Option.bind_some, toRes, ha]
      exact e2 n (by omega)

theorem flatMapIter_yields (hp : Resumes p xs ended) (hf : ∀ a ∈ elements xs, f a = .ok (g a)) :
    YieldsOutcomes (flatMapIter f p) (flatMapOutcomes g xs) ended := by
  obtain ⟨At, Ck, h⟩ := hp
  refine yields_of_sim (it := flatMapIter f p)
    (fun s m => m ≤ (flatMapOutcomes g xs).length ∧ ∃ q, At s.ps q ∧ flatRest g xs s.buf s.idx q = (flatMapOutcomes g xs).drop m) ?_ (fun h => h.1) ?_ ?_
  · exact ⟨by omega, 0, (h.get h.init).1, by simp [flatRest, flatMapIter]⟩
  · rintro s m r ⟨hm, q, hs, hq⟩ hr
    have hlt := getElem?_lt hr
    have hd : (flatMapOutcomes g xs).drop m = r :: (flatMapOutcomes g xs).drop (m + 1) := by
      rw [drop_cons_of_lt hlt]
      rw [List.getElem?_eq_getElem hlt] at hr
      rw [Option.some.inj hr]
    rw [hd] at hq
    obtain ⟨s', q', i1, i2, i3⟩ := flatMapLoop_outcome h hf _ q s rfl hs hq
    exact ⟨s', (i1.ge (xs.length - q + 1)).mono (fun F e => e.2 F e.1), hlt, q', i2, i3⟩
  · rintro s ⟨hm, q, hs, hq⟩ he
    subst he
    rw [List.drop_length] at hq
    obtain ⟨s', i1, i2, i3⟩ := flatMapLoop_end h hf _ q s rfl hs hq
    exact ⟨s', (i1.ge (xs.length - q + 1)).mono (fun F e => e.2 F e.1), Nat.le_refl _, xs.length, i2, by rw [i3, List.drop_length]⟩

end

/-! ### zip -/

/-- One step of `zip` over two inputs. -/
theorem zipIter_two_next {ps : Fin 2 → Iter α} {F : Nat} {s : ∀ i, (ps i).S} {s0 : (ps 0).S} {a : α} (h0 : (ps 0).next F (s 0) = some (s0, .item a))
    {s1 : (ps 1).S} {r : Py α} (h1 : (ps 1).next F (s 1) = some (s1, toRes r)) :
    (zipIter false ps).next F s = some (Function.update (Function.update s 0 s0) 1 s1,
      toRes (match r with | .ok b => .ok [a, b] | .error e => .error e)) := by
  have hu : (Function.update s 0 s0) 1 = s 1 := Function.update_of_ne (by decide) ..
  have hf : List.finRange 2 = [0, 1] := by decide
  cases r with
  | ok b =>
    simp only [zipIter, hf, nextAll, h0, Option.bind_eq_bind, Option.bind_some, hu, h1, toRes, List.nil_append, List.cons_append]
  | error e =>
    simp only [zipIter, hf, nextAll, h0, Option.bind_eq_bind, Option.bind_some, hu, h1, toRes]

theorem zipIter_yields {ps : Fin 2 → Iter α} {as : List α} {ys : List (Py α)} (h0 : Resumes (ps 0) (as.map Except.ok) false)
    (h1 : Resumes (ps 1) ys false) : YieldsOutcomes (zipIter false ps) (zipOutcomes as ys) false := by
  obtain ⟨At0, Ck0, h0⟩ := h0
  obtain ⟨At1, Ck1, h1⟩ := h1
  refine yields_of_sim (it := zipIter false ps)
    (fun s m => m ≤ (zipOutcomes as ys).length ∧ At0 (s 0) m ∧ At1 (s 1) m ∧ zipOutcomes (as.drop m) (ys.drop m) = (zipOutcomes as ys).drop m)
    ⟨by omega, h0.init, h1.init, by simp⟩ (fun h => h.1) ?_ (fun _ h => by cases h)
  rintro s m r ⟨hm, a0, a1, hz⟩ hr
  change ∀ i, (ps i).S at s
  have hlt := getElem?_lt hr
  have hd : (zipOutcomes as ys).drop m = r :: (zipOutcomes as ys).drop (m + 1) := by
    rw [drop_cons_of_lt hlt]
    rw [List.getElem?_eq_getElem hlt] at hr
    rw [Option.some.inj hr]
  rw [hd] at hz
  have ha : m < as.length := by
    by_contra hc
    rw [List.drop_eq_nil_of_le (by omega : as.length ≤ m)] at hz
    simp [zipOutcomes] at hz
  have hy : m < ys.length := by
    by_contra hc
    rw [List.drop_eq_nil_of_le (by omega : ys.length ≤ m)] at hz
    simp [zipOutcomes] at hz
  rw [drop_cons_of_lt ha, drop_cons_of_lt hy] at hz
  obtain ⟨s0, e0, n0⟩ := h0.next_item (r := .ok as[m]) a0 (by simp [ha])
  obtain ⟨s1, e1, n1⟩ := h1.next_item a1 (List.getElem?_eq_getElem hy)
  have hz' : r = (match ys[m] with | .ok b => .ok [as[m], b] | .error e => .error e) ∧
      zipOutcomes (as.drop (m + 1)) (ys.drop (m + 1)) = (zipOutcomes as ys).drop (m + 1) := by
    cases hx : ys[m] with
    | ok b => rw [hx] at hz; simp only [zipOutcomes, List.cons.injEq] at hz; exact ⟨hz.1.symm, hz.2⟩
    | error e => rw [hx] at hz; simp only [zipOutcomes, List.cons.injEq] at hz; exact ⟨hz.1.symm, hz.2⟩
  refine ⟨Function.update (Function.update s 0 s0) 1 s1, e0.mono₂ e1 ?_, hlt, ?_, ?_, hz'.2⟩
  · intro F f0 f1
    rw [hz'.1]
    exact zipIter_two_next f0 f1
  · have : Function.update (Function.update s 0 s0) 1 s1 0 = s0 := by
      rw [Function.update_of_ne (by decide), Function.update_self]
    rw [this]; exact n0
  · have : Function.update (Function.update s 0 s0) 1 s1 1 = s1 := Function.update_self ..
    rw [this]; exact n1

end Grain
