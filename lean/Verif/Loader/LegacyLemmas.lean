import Verif.Loader.LegacySpec
import Verif.Loader.Sim
import Verif.Iter.FlatMap
/-
Simulations for legacy operations and for the operations above a `FlatMap`.
-/
namespace Grain

/-! ### Generators -/

/-- What a generator yields for the elements `as` of its input: `none` if it raises. -/
def genRun (g : RecGen α β) : g.A → List α → Option (List β)
  | acc, [] =>
    match g.tail acc with
    | none => some []
    | some (.ok b) => some [b]
    | some (.error _) => none
  | acc, a :: as =>
    match g.step acc a with
    | .yield b => (genRun g g.start as).map (b :: ·)
    | .more acc => genRun g acc as
    | .fail _ => none

theorem genLoop_item {p : Iter α} {g : RecGen α β} {as : List α} {At : p.S → Nat → Prop} {Ck : p.C → Nat → Prop} {used : Nat → Bool}
    (h : SimWhen used p (as.map Except.ok) true At Ck) (hstart : g.tail g.start = none) (b : β) (bs : List β) :
    ∀ (k q : Nat) (acc : g.A) (s : p.S), k = as.length - q → At s q → genRun g acc (as.drop q) = some (b :: bs) →
    ∃ s' dead, Ev (fun F => ∀ n, k + 1 ≤ n → genLoop p g F n acc s = some ((s', dead), .item b)) ∧
      ∃ q', At s' q' ∧ genRun g g.start (as.drop q') = some bs ∧ (dead = true → bs = []) := by
  intro k
  induction k with
  | zero =>
    intro q acc s hk hs hr
    have hq : q = (as.map (Except.ok (ε := Err))).length := by
      have := h.bound hs
      simp at this ⊢
      omega
    rw [List.drop_eq_nil_of_le (by omega)] at hr
    subst hq
    obtain ⟨s1, h1, h2⟩ := h.next_stop hs rfl
    have htail : g.tail acc = some (.ok b) ∧ bs = [] := by
      unfold genRun at hr
      split at hr
      · cases hr
      · rename_i b' hb'; cases hr; exact ⟨hb', rfl⟩
      · cases hr
    obtain ⟨ht, rfl⟩ := htail
    refine ⟨s1, true, h1.mono ?_, _, h2, ?_, fun _ => rfl⟩
    · intro F e n hn
      obtain ⟨n, rfl⟩ : ∃ m, n = m + 1 := ⟨n - 1, by omega⟩
      simp only [genLoop, e, Option.bind_eq_bind, Option.bind_some, ht]
    · rw [List.drop_eq_nil_of_le (by simp)]
      simp only [genRun, hstart]
  | succ k ih =>
    intro q acc s hk hs hr
    have hq : q < as.length := by omega
    obtain ⟨s1, h1, h2⟩ := h.next_item (r := .ok as[q]) hs (by simp [hq])
    rw [drop_cons_of_lt hq] at hr
    simp only [genRun] at hr
    cases hst : g.step acc as[q] with
    | yield b' =>
      rw [hst] at hr
      simp only [Option.map_eq_some_iff] at hr
      obtain ⟨l, hl, hlb⟩ := hr
      cases hlb
      refine ⟨s1, false, h1.mono ?_, q + 1, h2, hl, by intro hf; cases hf⟩
      intro F e n hn
      obtain ⟨n, rfl⟩ : ∃ m, n = m + 1 := ⟨n - 1, by omega⟩
      simp only [genLoop, e, Option.bind_eq_bind, Option.bind_some, toRes, hst]
    | more acc' =>
      rw [hst] at hr
      obtain ⟨s', dead, h3, h4⟩ := ih (q + 1) acc' s1 (by omega) h2 hr
      refine ⟨s', dead, h1.mono₂ h3 ?_, h4⟩
      intro F e e' n hn
      obtain ⟨n, rfl⟩ : ∃ m, n = m + 1 := ⟨n - 1, by omega⟩
      simp only [genLoop, e, Option.bind_eq_bind, Option.bind_some, toRes, hst]
      exact e' n (by omega)
    | fail e => rw [hst] at hr; cases hr

theorem genLoop_stop {p : Iter α} {g : RecGen α β} {as : List α} {At : p.S → Nat → Prop} {Ck : p.C → Nat → Prop} {used : Nat → Bool}
    (h : SimWhen used p (as.map Except.ok) true At Ck) :
    ∀ (k q : Nat) (acc : g.A) (s : p.S), k = as.length - q → At s q → genRun g acc (as.drop q) = some [] →
    ∃ s', Ev (fun F => ∀ n, k + 1 ≤ n → genLoop p g F n acc s = some ((s', true), .stop)) ∧ At s' as.length := by
  intro k
  induction k with
  | zero =>
    intro q acc s hk hs hr
    have hq : q = (as.map (Except.ok (ε := Err))).length := by
      have := h.bound hs
      simp at this ⊢
      omega
    rw [List.drop_eq_nil_of_le (by omega)] at hr
    subst hq
    obtain ⟨s1, h1, h2⟩ := h.next_stop hs rfl
    have htail : g.tail acc = none := by
      unfold genRun at hr
      split at hr
      · assumption
      · cases hr
      · cases hr
    refine ⟨s1, h1.mono ?_, by simpa using h2⟩
    intro F e n hn
    obtain ⟨n, rfl⟩ : ∃ m, n = m + 1 := ⟨n - 1, by omega⟩
    simp only [genLoop, e, Option.bind_eq_bind, Option.bind_some, htail]
  | succ k ih =>
    intro q acc s hk hs hr
    have hq : q < as.length := by omega
    obtain ⟨s1, h1, h2⟩ := h.next_item (r := .ok as[q]) hs (by simp [hq])
    rw [drop_cons_of_lt hq] at hr
    simp only [genRun] at hr
    cases hst : g.step acc as[q] with
    | yield b' =>
      rw [hst] at hr
      simp only [Option.map_eq_some_iff] at hr
      obtain ⟨l, _, hlb⟩ := hr
      cases hlb
    | more acc' =>
      rw [hst] at hr
      obtain ⟨s', h3, h4⟩ := ih (q + 1) acc' s1 (by omega) h2 hr
      refine ⟨s', h1.mono₂ h3 ?_, h4⟩
      intro F e e' n hn
      obtain ⟨n, rfl⟩ : ∃ m, n = m + 1 := ⟨n - 1, by omega⟩
      simp only [genLoop, e, Option.bind_eq_bind, Option.bind_some, toRes, hst]
      exact e' n (by omega)
    | fail e => rw [hst] at hr; cases hr

/-- A generator over a parent that can be restored into new iterators. -/
theorem genIter_fresh {p : Iter α} {g : RecGen α β} {as : List α} {bs : List β} (hp : ResumesFresh p (as.map Except.ok) true)
    (hstart : g.tail g.start = none) (hr : genRun g g.start as = some bs) : ResumesFresh (genIter g p) (bs.map Except.ok) true := by
  obtain ⟨At, Ck, h⟩ := hp
  let Rel : Nat → Nat → Prop := fun q m => m ≤ bs.length ∧ genRun g g.start (as.drop q) = some (bs.drop m)
  refine ⟨fun s m => ∃ q, At s.1 q ∧ Rel q m ∧ (s.2 = true → m = bs.length), fun c m => ∃ q, Ck c q ∧ Rel q m, ?_⟩
  refine { init := ⟨0, h.init, ⟨Nat.zero_le _, by simpa using hr⟩, by intro hf; cases hf⟩, bound := fun ⟨q, _, hm, _⟩ => by simpa using hm.1,
           next_item := ?_, next_stop := ?_, get := ?_, set := (by intro _ _ _ _ _ _ _ hu; cases hu), set_init := ?_ }
  · rintro s m r ⟨q, hs, ⟨hm, hq⟩, hd⟩ hr
    have hlt : m < bs.length := by simpa using getElem?_lt hr
    have hr' : r = .ok bs[m] := by simpa [hlt] using hr.symm
    subst hr'
    have hal : s.2 = false := by
      cases h2 : s.2 with
      | false => rfl
      | true => have := hd h2; omega
    rw [drop_cons_of_lt hlt] at hq
    obtain ⟨s', dead, h1, q', h2, h3, h4⟩ := genLoop_item h hstart _ _ _ q g.start s.1 rfl hs hq
    refine ⟨(s', dead), (h1.ge (as.length - q + 1)).mono ?_, q', h2, ⟨by omega, h3⟩, ?_⟩
    · intro F e
      simp only [genIter, hal, Bool.false_eq_true, if_false]
      exact e.2 F e.1
    · intro hdd
      have hnil := h4 hdd
      have : bs.length ≤ m + 1 := List.drop_eq_nil_iff.1 hnil
      show m + 1 = bs.length
      omega
  · rintro s ⟨q, hs, ⟨hm, hq⟩, hd⟩ _
    rw [List.length_map] at hq
    cases hal : s.2 with
    | true =>
      refine ⟨s, Ev.of_forall (fun F => by simp only [genIter, hal, if_true]), q, hs, ⟨by simp, by simpa using hq⟩, fun _ => by simp⟩
    | false =>
      rw [List.drop_eq_nil_of_le (Nat.le_refl _)] at hq
      obtain ⟨s', h1, h2⟩ := genLoop_stop h _ q g.start s.1 rfl hs hq
      refine ⟨(s', true), (h1.ge (as.length - q + 1)).mono ?_, as.length, h2, ⟨by simp, ?_⟩, fun _ => by simp⟩
      · intro F e
        simp only [genIter, hal, Bool.false_eq_true, if_false]
        exact e.2 F e.1
      · simp [genRun, hstart]
  · rintro s m ⟨q, hs, hm, hd⟩
    exact ⟨⟨q, (h.get hs).1, hm, hd⟩, q, (h.get hs).2, hm⟩
  · rintro c m ⟨q, hc, hm⟩ _
    obtain ⟨s', h1, h2⟩ := h.set_init hc (Or.inr rfl)
    refine ⟨(s', false), h1.mono ?_, q, h2, hm, by intro hf; cases hf⟩
    intro F e
    simp only [genIter, e, Option.bind_eq_bind, Option.bind_some]

/-- Before its end a generator can be restored in place: with the elements yielded in the loop only. -/
def genYields (g : RecGen α β) : g.A → List α → List β
  | _, [] => []
  | acc, a :: as =>
    match g.step acc a with
    | .yield b => b :: genYields g g.start as
    | .more acc => genYields g acc as
    | .fail _ => []

theorem genLoop_yield {p : Iter α} {g : RecGen α β} {as : List α} {At : p.S → Nat → Prop} {Ck : p.C → Nat → Prop} {ended : Bool}
    (h : Sim p (as.map Except.ok) ended At Ck) (b : β) (bs : List β) :
    ∀ (k q : Nat) (acc : g.A) (s : p.S), k = as.length - q → At s q → genYields g acc (as.drop q) = b :: bs →
    ∃ s', Ev (fun F => ∀ n, k + 1 ≤ n → genLoop p g F n acc s = some ((s', false), .item b)) ∧
      ∃ q', At s' q' ∧ genYields g g.start (as.drop q') = bs := by
  intro k
  induction k with
  | zero =>
    intro q acc s hk hs hr
    rw [List.drop_eq_nil_of_le (by omega)] at hr
    cases hr
  | succ k ih =>
    intro q acc s hk hs hr
    have hq : q < as.length := by omega
    obtain ⟨s1, h1, h2⟩ := h.next_item (r := .ok as[q]) hs (by simp [hq])
    rw [drop_cons_of_lt hq] at hr
    simp only [genYields] at hr
    cases hst : g.step acc as[q] with
    | yield b' =>
      rw [hst] at hr
      simp only [List.cons.injEq] at hr
      obtain ⟨rfl, hr⟩ := hr
      refine ⟨s1, h1.mono ?_, q + 1, h2, hr⟩
      intro F e n hn
      obtain ⟨n, rfl⟩ : ∃ m, n = m + 1 := ⟨n - 1, by omega⟩
      simp only [genLoop, e, Option.bind_eq_bind, Option.bind_some, toRes, hst]
    | more acc' =>
      rw [hst] at hr
      obtain ⟨s', h3, h4⟩ := ih (q + 1) acc' s1 (by omega) h2 hr
      refine ⟨s', h1.mono₂ h3 ?_, h4⟩
      intro F e e' n hn
      obtain ⟨n, rfl⟩ : ∃ m, n = m + 1 := ⟨n - 1, by omega⟩
      simp only [genLoop, e, Option.bind_eq_bind, Option.bind_some, toRes, hst]
      exact e' n (by omega)
    | fail e => rw [hst] at hr; cases hr

theorem genIter_before_end {p : Iter α} {as : List α} {ended : Bool} (g : RecGen α β) (hp : Resumes p (as.map Except.ok) ended) :
    Resumes (genIter g p) ((genYields g g.start as).map Except.ok) false := by
  obtain ⟨At, Ck, h⟩ := hp
  generalize hbs : genYields g g.start as = bs
  let Rel : Nat → Nat → Prop := fun q m => m ≤ bs.length ∧ genYields g g.start (as.drop q) = bs.drop m
  refine ⟨fun s m => ∃ q, At s.1 q ∧ Rel q m ∧ s.2 = false, fun c m => ∃ q, Ck c q ∧ Rel q m, ?_⟩
  refine { init := ⟨0, h.init, ⟨Nat.zero_le _, by simpa using hbs⟩, rfl⟩, bound := fun ⟨q, _, hm, _⟩ => by simpa using hm.1,
           next_item := ?_, next_stop := by (intro _ _ hf; cases hf), get := ?_, set := ?_, ck_bound := fun ⟨q, _, hm⟩ => by simpa using hm.1 }
  · rintro s m r ⟨q, hs, ⟨hm, hq⟩, hal⟩ hr
    have hlt : m < bs.length := by simpa using getElem?_lt hr
    have hr' : r = .ok bs[m] := by simpa [hlt] using hr.symm
    subst hr'
    rw [drop_cons_of_lt hlt] at hq
    obtain ⟨s', h1, q', h2, h3⟩ := genLoop_yield h _ _ _ q g.start s.1 rfl hs hq
    refine ⟨(s', false), (h1.ge (as.length - q + 1)).mono ?_, q', h2, ⟨by omega, h3⟩, rfl⟩
    intro F e
    simp only [genIter, hal, Bool.false_eq_true, if_false]
    exact e.2 F e.1
  · rintro s m ⟨q, hs, hm, hd⟩
    exact ⟨⟨q, (h.get hs).1, hm, hd⟩, q, (h.get hs).2, hm⟩
  · rintro s n c m ⟨q, hs, _, hal⟩ ⟨q', hc, hm⟩ hk
    have hk' : q' < (as.map (Except.ok (ε := Err))).length ∨ ended = true := by
      rcases hk with hk | hk
      · left
        rw [List.length_map] at hk ⊢
        by_contra hcon
        have := hm.2
        rw [List.drop_eq_nil_of_le (by omega), drop_cons_of_lt hk] at this
        cases this
      · cases hk
    obtain ⟨s', h1, h2⟩ := h.set hs hc hk'
    refine ⟨(s', s.2), h1.mono ?_, q', h2, hm, hal⟩
    intro F e
    simp only [genIter, e, Option.bind_eq_bind, Option.bind_some]

/-! ### The four legacy operations -/

theorem genRun_map {g : RecGen (Option (Rec D)) (Option (Rec D))} {f : Rec D → Option (Rec D)} (ht : g.tail g.start = none)
    (hg : ∀ r y, f r = some y → g.step g.start (some r) = .yield (some y.dropKey)) :
    ∀ (rs ys : List (Rec D)), rs.mapM f = some ys → genRun g g.start (rs.map some) = some ((ys.map Rec.dropKey).map some) := by
  intro rs
  induction rs with
  | nil => intro ys h; cases h; simp [genRun, ht]
  | cons r rs ih =>
    intro ys h
    rw [List.mapM_cons] at h
    cases hf : f r with
    | none => rw [hf] at h; cases h
    | some y =>
      rw [hf] at h
      cases hm : rs.mapM f with
      | none => rw [hm] at h; cases h
      | some zs =>
        rw [hm] at h
        cases h
        simp only [List.map_cons, genRun, hg r y hf, ih zs hm, Option.map_some]

theorem genRun_filter {pred : D → Py Bool} : ∀ (rs ys : List (Rec D)), (DlOp.filter pred).run rs = some ys →
    genRun (DlOp.filter pred).gen (DlOp.filter pred).gen.start (rs.map some) = some ((ys.map Rec.dropKey).map some) := by
  intro rs
  induction rs with
  | nil => intro ys h; cases h; rfl
  | cons r rs ih =>
    intro ys h
    simp only [DlOp.run, List.mapM_cons, Option.map_eq_some_iff] at h
    obtain ⟨l, hl, rfl⟩ := h
    cases hp : pred r.data with
    | error e => rw [hp] at hl; cases hl
    | ok b =>
      rw [hp] at hl
      cases hm : rs.mapM (fun r => (okVal (pred r.data)).map (fun b => (r, b))) with
      | none => rw [hm] at hl; cases hl
      | some l' =>
        rw [hm] at hl
        cases hl
        have := ih ((l'.filter (·.2)).map (·.1)) (by simp only [DlOp.run, hm, Option.map_some])
        cases b with
        | true =>
          simp only [List.map_cons, genRun, DlOp.gen, hp]
          simp only [DlOp.gen] at this
          rw [this]
          simp
        | false =>
          simp only [List.map_cons, genRun, DlOp.gen, hp]
          simp only [DlOp.gen] at this
          rw [this]
          simp

/-- One batch of a data loader. -/
def oneBatch (fn : List D → Py D) (l : List (Rec D)) : Option (Rec D) :=
  match l.getLast? with
  | none => none
  | some x => (okVal (fn (l.map (·.data)))).map (fun d => ⟨{ x.md with key := none }, d⟩)

theorem batchRun_eq (b : Nat) (drop : Bool) (fn : List D → Py D) (rs : List (Rec D)) :
    (DlOp.batch b drop fn).run rs = (List.range (batchCount rs.length b drop)).mapM (fun i => oneBatch fn (group rs b i)) := rfl

theorem batchRun_short {b : Nat} {drop : Bool} {fn : List D → Py D} {rs : List (Rec D)} (hb : rs.length < b) :
    (DlOp.batch b drop fn).run rs = if rs = [] ∨ drop = true then some [] else (oneBatch fn rs).map (fun y => [y]) := by
  rw [batchRun_eq]
  have hg : group rs b 0 = rs := by unfold group; rw [Nat.zero_mul, List.drop_zero, List.take_of_length_le (by omega)]
  split
  · rename_i h
    have : batchCount rs.length b drop = 0 := by
      unfold batchCount
      rcases h with rfl | rfl
      · split
        · simp
        · simp only [List.length_nil, Nat.zero_add]; exact Nat.div_eq_of_lt (by omega)
      · rw [if_pos rfl]; exact Nat.div_eq_of_lt hb
    rw [this]
    rfl
  · rename_i h
    rw [not_or] at h
    have h0 : 0 < rs.length := List.length_pos_iff.2 h.1
    have : batchCount rs.length b drop = 1 := by
      unfold batchCount
      rw [if_neg (by simpa using h.2)]
      have : rs.length + b - 1 = (rs.length - 1) + b := by omega
      rw [this, Nat.add_div_right _ (by omega), Nat.div_eq_of_lt (by omega)]
    rw [this, List.range_one, List.mapM_cons, hg]
    cases oneBatch fn rs <;> rfl

theorem batchRun_full {b : Nat} (hb : 0 < b) {drop : Bool} {fn : List D → Py D} {rs : List (Rec D)} (hl : b ≤ rs.length) :
    (DlOp.batch b drop fn).run rs = (oneBatch fn (rs.take b)).bind (fun y => ((DlOp.batch b drop fn).run (rs.drop b)).map (y :: ·)) := by
  rw [batchRun_eq, batchRun_eq]
  have hc : batchCount rs.length b drop = batchCount (rs.drop b).length b drop + 1 := by
    unfold batchCount
    rw [List.length_drop]
    split
    · rw [← Nat.add_div_right _ hb]; congr 1; omega
    · rw [← Nat.add_div_right _ hb]; congr 1; omega
  have hg0 : group rs b 0 = rs.take b := by unfold group; rw [Nat.zero_mul, List.drop_zero]
  have hg : ∀ i, group rs b (i + 1) = group (rs.drop b) b i := by
    intro i
    unfold group
    rw [List.drop_drop, Nat.add_mul, Nat.one_mul, Nat.add_comm b]
  rw [hc, List.range_succ_eq_map, List.mapM_cons, hg0, List.mapM_map]
  simp only [Function.comp_def, hg]
  cases oneBatch fn (rs.take b) with
  | none => rfl
  | some y =>
    simp only [Option.bind_eq_bind, Option.bind_some]
    cases (List.range (batchCount (rs.drop b).length b drop)).mapM (fun x => oneBatch fn (group (rs.drop b) b x)) <;> rfl

theorem genRun_batch_short {b : Nat} {drop : Bool} {fn : List D → Py D} :
    ∀ (rs acc : List (Rec D)), (acc ++ rs).length < b →
    genRun (DlOp.batch b drop fn).gen acc (rs.map some) = genRun (DlOp.batch b drop fn).gen (acc ++ rs) [] := by
  intro rs
  induction rs with
  | nil => intro acc _; simp
  | cons r rs ih =>
    intro acc h
    have hne : ¬ (acc ++ [r]).length = b := by simp at h ⊢; omega
    have : genRun (DlOp.batch b drop fn).gen acc ((r :: rs).map some) = genRun (DlOp.batch b drop fn).gen (acc ++ [r]) (rs.map some) := by
      simp only [List.map_cons, genRun, DlOp.gen, if_neg hne]
    rw [this, ih (acc ++ [r]) (by simp at h ⊢; omega)]
    simp

theorem genRun_batch_full {b : Nat} {drop : Bool} {fn : List D → Py D} {y : Rec D} :
    ∀ (rs acc : List (Rec D)), acc.length < b → b ≤ (acc ++ rs).length → oneBatch fn ((acc ++ rs).take b) = some y →
    genRun (DlOp.batch b drop fn).gen acc (rs.map some) =
      (genRun (DlOp.batch b drop fn).gen (DlOp.batch b drop fn).gen.start ((rs.drop (b - acc.length)).map some)).map (some y.dropKey :: ·) := by
  intro rs
  induction rs with
  | nil => intro acc h1 h2; simp at h2; omega
  | cons r rs ih =>
    intro acc h1 h2 hy
    by_cases hb : (acc ++ [r]).length = b
    · have ht : (acc ++ r :: rs).take b = acc ++ [r] := by
        rw [show acc ++ r :: rs = (acc ++ [r]) ++ rs by simp, ← hb, List.take_left']
        rfl
      have hd : b - acc.length = 1 := by simp at hb; omega
      rw [ht] at hy
      unfold oneBatch at hy
      rw [List.getLast?_concat] at hy
      simp only [Option.map_eq_some_iff] at hy
      obtain ⟨d, hd', rfl⟩ := hy
      have hfn : fn ((acc ++ [r]).map (·.data)) = .ok d := by
        cases hf : fn ((acc ++ [r]).map (·.data)) with
        | error e => rw [hf] at hd'; cases hd'
        | ok d' => rw [hf] at hd'; cases hd'; rfl
      rw [hd, List.drop_one, List.tail_cons]
      simp only [List.map_cons, genRun, DlOp.gen, if_pos hb, hfn, Rec.dropKey]
    · have : genRun (DlOp.batch b drop fn).gen acc ((r :: rs).map some) = genRun (DlOp.batch b drop fn).gen (acc ++ [r]) (rs.map some) := by
        simp only [List.map_cons, genRun, DlOp.gen, if_neg hb]
      rw [this, ih (acc ++ [r]) (by simp at hb ⊢; omega) (by simpa using h2) (by simpa using hy)]
      have e : b - acc.length = (b - (acc ++ [r]).length) + 1 := by simp at hb ⊢; omega
      rw [e, List.drop_succ_cons]

theorem genRun_batch {b : Nat} (hb : 0 < b) {drop : Bool} {fn : List D → Py D} : ∀ (n : Nat) (rs ys : List (Rec D)), rs.length ≤ n →
    (DlOp.batch b drop fn).run rs = some ys →
    genRun (DlOp.batch b drop fn).gen (DlOp.batch b drop fn).gen.start (rs.map some) = some ((ys.map Rec.dropKey).map some) := by
  intro n
  induction n using Nat.strong_induction_on with
  | _ n ih =>
    intro rs ys hn h
    by_cases hl : rs.length < b
    · rw [batchRun_short hl] at h
      have e := genRun_batch_short (drop := drop) (fn := fn) rs [] (by simpa using hl)
      rw [List.nil_append] at e
      refine Eq.trans e ?_
      split at h
      · rename_i hc
        cases h
        rcases hc with rfl | rfl
        · rfl
        · simp only [genRun, DlOp.gen]
          cases rs.getLast? <;> rfl
      · rename_i hc
        rw [not_or] at hc
        simp only [Option.map_eq_some_iff] at h
        obtain ⟨y, hy, rfl⟩ := h
        unfold oneBatch at hy
        cases hgl : rs.getLast? with
        | none => rw [hgl] at hy; cases hy
        | some x =>
          rw [hgl] at hy
          simp only [Option.map_eq_some_iff] at hy
          obtain ⟨d, hd', rfl⟩ := hy
          have hfn : fn (rs.map (·.data)) = .ok d := by
            cases hf : fn (rs.map (·.data)) with
            | error e => rw [hf] at hd'; cases hd'
            | ok d' => rw [hf] at hd'; cases hd'; rfl
          have hdr : drop = false := by simpa using hc.2
          subst hdr
          simp only [genRun, DlOp.gen, hgl, hfn]
          rfl
    · rw [batchRun_full hb (by omega), Option.bind_eq_some_iff] at h
      obtain ⟨y, hy, h⟩ := h
      rw [Option.map_eq_some_iff] at h
      obtain ⟨zs, hz, rfl⟩ := h
      have e := genRun_batch_full (b := b) (drop := drop) (fn := fn) (y := y) rs [] (by simpa using hb) (by simp; omega) (by simpa using hy)
      refine Eq.trans e ?_
      have hlen : (rs.drop b).length < n := by
        rw [List.length_drop]
        omega
      have := ih _ hlen (rs.drop b) zs (Nat.le_refl _) hz
      rw [show b - ([] : List (Rec D)).length = b from rfl, this]
      rfl

theorem gen_tail_start (op : DlOp D) : op.gen.tail op.gen.start = none := by
  cases op <;> rfl

theorem legacy_genRun {op : DlOp D} (hv : op.valid) {rs ys : List (Rec D)} (hr : op.run rs = some ys) :
    genRun op.gen op.gen.start (rs.map some) = some ((ys.map Rec.dropKey).map some) := by
  cases op with
  | map f =>
    refine genRun_map rfl ?_ rs ys hr
    intro r y h
    cases hf : f r.data with
    | error e => rw [hf] at h; cases h
    | ok d => rw [hf] at h; cases h; simp only [DlOp.gen, hf]
  | randomMap f =>
    refine genRun_map rfl ?_ rs ys hr
    intro r y h
    cases hf : f r.data r.md.rng with
    | error e => rw [hf] at h; cases h
    | ok d => rw [hf] at h; cases h; simp only [DlOp.gen, hf]
  | filter pred => exact genRun_filter rs ys hr
  | batch b drop fn => exact genRun_batch hv _ rs ys (Nat.le_refl _) hr

/-! ### All operations, restoring into new iterators -/

/-- The iterators of a family, restored always as if they were new. -/
def OpFam.renew (p : OpFam C α) : OpFam C α := { p with set := fun w F _ c => p.set w F (p.init w) c }

theorem OpFam.renew_resumes {p : OpFam C α} {w : Nat} {xs : List (Py α)} (h : ResumesFresh (p.fam.iter w) xs true) :
    Resumes (p.renew.fam.iter w) xs true := by
  obtain ⟨At, Ck, h⟩ := h
  refine ⟨At, Ck, ?_⟩
  exact { init := h.init, bound := h.bound, next_item := h.next_item, next_stop := h.next_stop, get := h.get,
          set := fun _ hc hm => h.set_init hc hm
          ck_bound := fun hc => by
            obtain ⟨s', _, hs⟩ := h.set_init hc (Or.inr rfl)
            exact h.bound hs }

theorem filterLoop_renew (p : OpFam C α) (w : Nat) (pred : α → Py Bool) (thr : Option Threshold) (F : Nat) : ∀ (n : Nat) (s : p.S × Checker),
    filterLoop (p.renew.fam.iter w) pred thr F n s = filterLoop (p.fam.iter w) pred thr F n s := by
  intro n
  induction n with
  | zero => intro s; rfl
  | succ n ih =>
    intro s
    simp only [filterLoop]
    show (p.next w F s.1).bind _ = (p.next w F s.1).bind _
    congr 1
    funext x
    obtain ⟨ps, q⟩ := x
    cases q with
    | stop => rfl
    | fail e => rfl
    | item a =>
      dsimp only
      cases pred a with
      | error e => rfl
      | ok b =>
        dsimp only
        rcases s.2.check thr b with ⟨c, _ | e⟩
        · cases b with
          | true => rfl
          | false => exact ih (ps, c)
        · rfl

theorem batchLoop_renew (p : OpFam C α) (w : Nat) (drop : Bool) (F : Nat) : ∀ (n : Nat) (s : p.S) (vs : List α),
    batchLoop (p.renew.fam.iter w) drop F n s vs = batchLoop (p.fam.iter w) drop F n s vs := by
  intro n
  induction n with
  | zero => intro s vs; rfl
  | succ n ih =>
    intro s vs
    simp only [batchLoop]
    show (p.next w F s).bind _ = (p.next w F s).bind _
    congr 1
    funext x
    obtain ⟨ps, q⟩ := x
    cases q with
    | stop => rfl
    | fail e => rfl
    | item a => exact ih _ _

theorem apply_renew_next (op : DlOp D) (p : OpFam C (Option (Rec D))) (w F : Nat) :
    (op.apply p.renew).next w F ≍ (op.apply p).next w F := by
  cases op with
  | map f => rfl
  | randomMap f => rfl
  | filter pred =>
    apply heq_of_eq
    funext s
    exact filterLoop_renew p w _ none F F s
  | batch b drop fn =>
    apply heq_of_eq
    funext s
    simp only [DlOp.apply, batchIter]
    exact congrArg (fun x => Option.bind x _) (batchLoop_renew p w drop F b s [])

theorem transform_fresh {op : DlOp D} {p : OpFam C (Option (Rec D))} {w : Nat} {rs ys : List (Rec D)} (hv : op.valid)
    (hr : op.run rs = some ys) (h : ResumesFresh (p.fam.iter w) ((rs.map some).map Except.ok) true) :
    ResumesFresh ((op.apply p).fam.iter w) ((ys.map some).map Except.ok) true := by
  obtain ⟨At, Ck, h⟩ := op_resumes hv hr (OpFam.renew_resumes h)
  have hn := fun F => apply_renew_next op p w F
  cases op <;>
  exact ⟨At, Ck, { init := h.init, bound := h.bound
                   next_item := fun hs hx => by
                     obtain ⟨s', g1, g2⟩ := h.next_item hs hx
                     exact ⟨s', g1.mono (fun F e => (congrFun (eq_of_heq (hn F)) _).symm.trans e), g2⟩
                   next_stop := fun hs he => by
                     obtain ⟨s', g1, g2⟩ := h.next_stop hs he
                     exact ⟨s', g1.mono (fun F e => (congrFun (eq_of_heq (hn F)) _).symm.trans e), g2⟩
                   get := h.get
                   set := by intro _ _ _ _ _ _ _ hu; cases hu
                   set_init := fun hc hm => h.set h.init hc hm }⟩

theorem ldOp_fresh {op : LdOp D} {p : OpFam C (Option (Rec D))} {w : Nat} {rs ys : List (Rec D)} (hv : op.valid)
    (hr : op.run rs = some ys) (h : ResumesFresh (p.fam.iter w) ((rs.map some).map Except.ok) true) :
    ResumesFresh ((op.apply p).fam.iter w) ((ys.map some).map Except.ok) true := by
  cases op with
  | transform op => exact transform_fresh hv hr h
  | legacy op =>
    simp only [LdOp.run, Option.map_eq_some_iff] at hr
    obtain ⟨zs, hz, rfl⟩ := hr
    exact genIter_fresh h (gen_tail_start op) (legacy_genRun hv hz)

theorem ldOps_fresh {w : Nat} : ∀ (ops : List (LdOp D)) (p : OpFam C (Option (Rec D))) (rs ys : List (Rec D)), (∀ op ∈ ops, op.valid) →
    runLdOps ops rs = some ys → ResumesFresh (p.fam.iter w) ((rs.map some).map Except.ok) true →
    ResumesFresh ((ops.foldl (fun p op => op.apply p) p).fam.iter w) ((ys.map some).map Except.ok) true := by
  intro ops
  induction ops with
  | nil => intro p rs ys _ h; cases h; exact id
  | cons op ops ih =>
    intro p rs ys hv h hp
    simp only [runLdOps, Option.bind_eq_some_iff] at h
    obtain ⟨zs, h1, h2⟩ := h
    rw [List.foldl_cons]
    exact ih _ _ _ (fun o ho => hv o (by simp [ho])) h2 (ldOp_fresh (hv op (by simp)) h1 hp)

theorem dataFam_fresh {q : OpFam C (Option (Rec (Option V)))} {w : Nat} {ys : List (Rec (Option V))}
    (h : ResumesFresh (q.fam.iter w) ((ys.map some).map Except.ok) true) :
    ResumesFresh ((dataFam q).fam.iter w) ((ys.map (·.data)).map Except.ok) true := by
  obtain ⟨At, Ck, h⟩ := OpFam.renew_resumes h
  have h := mapIter_sim (f := fun (r : Rec (Option V)) => .ok r.data) h
  have he : ((ys.map some).map Except.ok).map (mapOutcome (fun (r : Rec (Option V)) => .ok r.data)) = (ys.map (·.data)).map Except.ok := by
    rw [List.map_map, List.map_map, List.map_map]
    rfl
  rw [he] at h
  exact ⟨At, Ck, { init := h.init, bound := h.bound, next_item := h.next_item, next_stop := h.next_stop, get := h.get,
                   set := by intro _ _ _ _ _ _ _ hu; cases hu
                   set_init := fun hc hm => h.set h.init hc hm }⟩

/-! ### FlatMap -/

/-- `get_state` changes nothing. -/
def OpFam.PureGet (p : OpFam C α) : Prop := ∀ w s, (p.get w s).1 = s

theorem flatMapLoop_renew (p : OpFam C α) (w : Nat) (f : α → Py (List β)) (F : Nat) : ∀ (n : Nat) (s : FlatMapState p.S C β),
    flatMapLoop (p.renew.fam.iter w) f F n s = flatMapLoop (p.fam.iter w) f F n s := by
  intro n
  induction n with
  | zero => intro s; rfl
  | succ n ih =>
    intro s
    simp only [flatMapLoop]
    cases s.buf[s.idx]? with
    | some b => rfl
    | none =>
      dsimp only
      show (p.next w F (p.get w s.ps).1).bind _ = (p.next w F (p.get w s.ps).1).bind _
      congr 1
      funext x
      obtain ⟨ps, q⟩ := x
      cases q with
      | stop => rfl
      | fail e => rfl
      | item a =>
        dsimp only
        cases f a with
        | error e => rfl
        | ok l => exact ih _

/-- `FlatMap` over a parent that can be restored into new iterators. -/
theorem flatMap_fresh {p : OpFam C α} (hpure : p.PureGet) {w : Nat} {as : List α} {g : α → List β} {f : α → Py (List β)}
    (hp : ResumesFresh (p.fam.iter w) (as.map Except.ok) true) (hf : ∀ a ∈ as, f a = .ok (g a)) :
    ResumesFresh (flatMapIter f (p.fam.iter w)) ((as.flatMap g).map Except.ok) true := by
  obtain ⟨At, Ck, h, _⟩ := flatMapIter_sim (OpFam.renew_resumes hp) hf
  have hset : ∀ F c, (flatMapIter f (p.fam.iter w)).set F (flatMapIter f (p.fam.iter w)).init c =
      (flatMapIter f (p.renew.fam.iter w)).set F (flatMapIter f (p.renew.fam.iter w)).init c := by
    intro F c
    simp only [flatMapIter]
    show (p.set w F (p.get w (p.init w)).1 c.1).bind _ = (p.set w F (p.init w) c.1).bind _
    rw [hpure]
    congr 1
    funext x
    obtain ⟨ps, _ | e⟩ := x
    · show (p.next w F ps).bind _ = (p.next w F ps).bind _
      congr 1
    · rfl
  exact ⟨At, Ck, { init := h.init, bound := h.bound
                   next_item := fun hs hx => by
                     obtain ⟨s', g1, g2⟩ := h.next_item hs hx
                     exact ⟨s', g1.mono (fun F e => (flatMapLoop_renew p w f F F _).symm.trans e), g2⟩
                   next_stop := fun hs he => by
                     obtain ⟨s', g1, g2⟩ := h.next_stop hs he
                     exact ⟨s', g1.mono (fun F e => (flatMapLoop_renew p w f F F _).symm.trans e), g2⟩
                   get := h.get
                   set := by intro _ _ _ _ _ _ _ hu; cases hu
                   set_init := fun hc hm => by
                     obtain ⟨s', g1, g2⟩ := h.set_init hc hm
                     exact ⟨s', g1.mono (fun F e => (hset F _).trans e), g2⟩ }⟩

/-- The fan-out of a record. -/
def fanOut (f : D → Py (List D)) (m : Int) (r : Rec D) : Option (List (Rec D)) :=
  (okVal (f r.data)).map (fun ds => ds.mapIdx (fun j d => (⟨⟨r.md.index * m + (j : Int), none, none⟩, d⟩ : Rec D)))

theorem flatMapRecords_ok {f : D → Py (List D)} {m : Int} {r : Rec D} {l : List (Rec D)} (h : fanOut f m r = some l) :
    flatMapRecords f m (some r) = .ok (l.map some) := by
  unfold fanOut at h
  cases hf : f r.data with
  | error e => rw [hf] at h; cases h
  | ok ds =>
    rw [hf] at h
    cases h
    simp only [flatMapRecords, hf, List.mapIdx_eq_zipIdx_map, List.map_map]
    rfl

theorem mapM_forall {f : γ → Option β} : ∀ (l : List γ) (ys : List β), l.mapM f = some ys → ∀ a ∈ l, ∃ b, f a = some b := by
  intro l ys h a ha
  obtain ⟨i, hi, rfl⟩ := List.getElem_of_mem ha
  exact ⟨_, mapM_some_getElem l ys h i hi (by rw [mapM_some_length' _ _ _ h]; exact hi)⟩

theorem mapM_eq_map_getD {f : γ → Option (List β)} : ∀ (l : List γ) (ys : List (List β)), l.mapM f = some ys →
    ys = l.map (fun a => (f a).getD []) := by
  intro l ys h
  have hl := mapM_some_length' _ _ _ h
  apply List.ext_getElem
  · simpa using hl
  · intro i h1 h2
    rw [List.getElem_map, mapM_some_getElem l ys h i (by simpa using h2) h1]
    rfl

theorem nOp_fresh {op : NOp D} {p : IterFam (Option (Rec D))} (hpure : p.op.PureGet) {w : Nat} {rs ys : List (Rec D)} (hv : op.valid)
    (hr : op.run rs = some ys) (h : ResumesFresh (p.iter w) ((rs.map some).map Except.ok) true) :
    ResumesFresh ((op.apply p).iter w) ((ys.map some).map Except.ok) true := by
  cases op with
  | keep op => exact ldOp_fresh (p := p.op) hv hr h
  | flatMap f m =>
    simp only [NOp.run, Option.map_eq_some_iff] at hr
    obtain ⟨ls, hls, rfl⟩ := hr
    have hls' : rs.mapM (fanOut f m) = some ls := hls
    have hflat := flatMap_fresh (p := p.op) hpure (w := w) (as := rs.map some)
      (g := fun o => ((o.bind (fanOut f m)).getD []).map some) (f := flatMapRecords f m) h (by
        intro a ha
        obtain ⟨r, hr, rfl⟩ := List.mem_map.1 ha
        obtain ⟨l, hl⟩ := mapM_forall _ _ hls' r hr
        rw [flatMapRecords_ok hl]
        simp [hl])
    have he : (rs.map some).flatMap (fun o => ((o.bind (fanOut f m)).getD []).map some) = ls.flatten.map some := by
      rw [mapM_eq_map_getD _ _ hls', List.flatMap_map, List.map_flatten, List.flatMap_def, List.map_map]
      rfl
    rw [he] at hflat
    exact hflat

/-! ### `get_state` changes nothing -/

theorem readFam_pure (size threads : Nat) (ds : MapDs α) (n : Nat) : (readFam size threads ds n).fam.op.PureGet := by
  intro w s
  rfl

theorem transform_pure {op : DlOp D} {p : OpFam C (Option (Rec D))} (h : p.PureGet) : (op.apply p).PureGet := by
  intro w s
  cases op with
  | map f => exact h w s
  | randomMap f => exact h w s
  | filter pred =>
    show ((p.get w s.1).1, s.2) = s
    rw [h]
    rfl
  | batch b drop fn => exact h w s

theorem nOp_pure {op : NOp D} {p : IterFam (Option (Rec D))} (h : p.op.PureGet) : (op.apply p).op.PureGet := by
  cases op with
  | keep op =>
    cases op with
    | transform op => exact transform_pure (p := p.op) h
    | legacy op =>
      intro w s
      show ((p.op.get w s.1).1, s.2) = s
      rw [h]
      rfl
  | flatMap f m => intro w s; rfl

theorem nOps_fresh {w : Nat} : ∀ (ops : List (NOp D)) (p : IterFam (Option (Rec D))) (rs ys : List (Rec D)), p.op.PureGet →
    (∀ op ∈ ops, op.valid) → runNOps ops rs = some ys → ResumesFresh (p.iter w) ((rs.map some).map Except.ok) true →
    ResumesFresh ((ops.foldl (fun p op => op.apply p) p).iter w) ((ys.map some).map Except.ok) true := by
  intro ops
  induction ops with
  | nil => intro p rs ys _ _ h; cases h; exact id
  | cons op ops ih =>
    intro p rs ys hpure hv h hp
    simp only [runNOps, Option.bind_eq_some_iff] at h
    obtain ⟨zs, h1, h2⟩ := h
    rw [List.foldl_cons]
    exact ih _ _ _ (nOp_pure hpure) (fun o ho => hv o (by simp [ho])) h2 (nOp_fresh hpure (hv op (by simp)) h1 hp)

/-- What worker `w` of `n` yields. -/
theorem nativeFam_fresh {shard : ShardOptions} {src : MapDs V} {s : Sampler} {size : Nat} {ops : List (NOp (Option V))}
    {rs ys : List (Rec (Option V))} (bufferSize threads : Nat) (hv : ∀ op ∈ ops, op.valid)
    (hrd : readAll (samplerDs src s shard size) = some rs) {n w : Nat} (hn : 0 < n) (hw : w < n)
    (hr : runNOps ops (everyNth n w rs) = some ys) :
    ResumesFresh ((nativeFam shard src s size ops bufferSize threads n).iter w) ((ys.map (·.data)).map Except.ok) true := by
  obtain ⟨h1, h2⟩ := readAll_reads hrd
  have h := (readFam_resumes bufferSize threads h1 h2 hn hw).fresh
  have hops := nOps_fresh ops _ _ _ (readFam_pure _ _ _ _) hv hr h
  exact dataFam_fresh (q := IterFam.op _) hops

/-- The same without `FlatMap`. -/
theorem ldFam_fresh {shard : ShardOptions} {src : MapDs V} {s : Sampler} {size : Nat} {ops : List (LdOp (Option V))}
    {rs ys : List (Rec (Option V))} (bufferSize threads : Nat) (hv : ∀ op ∈ ops, op.valid)
    (hrd : readAll (samplerDs src s shard size) = some rs) {n w : Nat} (hn : 0 < n) (hw : w < n)
    (hr : runLdOps ops (everyNth n w rs) = some ys) :
    ResumesFresh ((dataFam (ops.foldl (fun p op => op.apply p) (readFam bufferSize threads (samplerDs src s shard size) n))).fam.iter w)
      ((ys.map (·.data)).map Except.ok) true := by
  obtain ⟨h1, h2⟩ := readAll_reads hrd
  exact dataFam_fresh (ldOps_fresh ops _ _ _ hv hr (readFam_resumes bufferSize threads h1 h2 hn hw).fresh)

end Grain
