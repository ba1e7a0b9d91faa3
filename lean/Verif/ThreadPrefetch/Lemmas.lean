import Verif.ThreadPrefetch.Model
namespace Grain

/-! Invariant of the thread prefetch system. -/

section
variable {p : Iter α} {x : Nat → Option (Py α)} {At : p.S → Nat → Prop} {Ck : p.C → Nat → Prop} {size : Nat}

/-- The entries follow the stream from position `n` to `m`; `e` tells that the last one is an exception. -/
inductive BufAt (x : Nat → Option (Py α)) (Ck : C → Nat → Prop) : Nat → List (TPEntry α C) → Nat → Bool → Prop where
  | nil {n} : BufAt x Ck n [] n false
  | elem {n a c es m e} : x n = some (.ok a) → Ck c (n + 1) → BufAt x Ck (n + 1) es m e → BufAt x Ck n (.elem a c :: es) m e
  | err {n} : (∀ a, streamRes x n ≠ .item a) → BufAt x Ck n [.err (streamRes x n)] (streamPos x n) true

theorem BufAt.snoc_elem {C : Type} {Ck : C → Nat → Prop} {n m : Nat} {l : List (TPEntry α C)} {b : Bool} (h : BufAt x Ck n l m b) (hb : b = false)
    {a : α} {c : C} (ha : x m = some (.ok a)) (hc : Ck c (m + 1)) : BufAt x Ck n (l ++ [.elem a c]) (m + 1) false := by
  induction h with
  | nil => exact .elem ha hc .nil
  | elem h1 h2 _ ih => exact .elem h1 h2 (ih hb ha hc)
  | err _ => cases hb

theorem BufAt.snoc_err {C : Type} {Ck : C → Nat → Prop} {n m : Nat} {l : List (TPEntry α C)} {b : Bool} (h : BufAt x Ck n l m b) (hb : b = false)
    (hr : ∀ a, streamRes x m ≠ .item a) : BufAt x Ck n (l ++ [.err (streamRes x m)]) (streamPos x m) true := by
  induction h with
  | nil => exact .err hr
  | elem h1 h2 _ ih => exact .elem h1 h2 (ih hb hr)
  | err _ => cases hb

theorem BufAt.last_elem {C : Type} {Ck : C → Nat → Prop} {n m : Nat} {l l' : List (TPEntry α C)} {b : Bool} (h : BufAt x Ck n l' m b) {a : α} {c : C}
    (hl : l' = l ++ [.elem a c]) : b = false := by
  induction h generalizing l with
  | nil => rfl
  | elem h1 h2 h3 ih =>
    cases l with
    | nil =>
      simp only [List.nil_append, List.cons.injEq] at hl
      obtain ⟨_, rfl⟩ := hl
      cases h3
      rfl
    | cons y l =>
      simp only [List.cons_append, List.cons.injEq] at hl
      exact ih hl.2
  | err _ =>
    cases l with
    | nil => simp at hl
    | cons y l => simp at hl

theorem BufAt.last_err {C : Type} {Ck : C → Nat → Prop} {n m : Nat} {l l' : List (TPEntry α C)} {b : Bool} (h : BufAt x Ck n l' m b) {r : Res α}
    (hl : l' = l ++ [.err r]) : b = true := by
  induction h generalizing l with
  | nil => simp at hl
  | elem h1 h2 h3 ih =>
    cases l with
    | nil => simp at hl
    | cons y l =>
      simp only [List.cons_append, List.cons.injEq] at hl
      exact ih hl.2
  | err _ => rfl

/-- The entry the producer is about to put. -/
def tpPending : TPProducer α C → List (TPEntry α C)
  | .put e => [e]
  | _ => []

/-- The thread runs and is not being stopped: what is in the buffer and about to be put follows the stream from the user's
position to the parent's. -/
def TPRunning (x : Nat → Option (Py α)) (At : p.S → Nat → Prop) (Ck : p.C → Nat → Prop) (s : TPSys p) (pos : Nat) : Prop :=
  ∃ t m b, s.thread = some t ∧ s.stop = false ∧ BufAt x Ck pos (s.buf ++ tpPending t) m b ∧ At s.ps m ∧
    (t = .check ∨ t = .read → b = false) ∧ (t = .exited → b = true)

/-- What the consumer will do after stopping the thread is what the call under way asks for. -/
def TPContOk (x : Nat → Option (Py α)) (At : p.S → Nat → Prop) (s : TPSys p) (pos : Nat) : TPCont α p.C → Prop
  | .raise r => s.closed = false ∧ (∃ ops, s.prog = .next :: ops) ∧ r = streamRes x pos ∧ (∀ a, r ≠ .item a) ∧
      At s.ps (streamPos x pos) ∧ s.buf = [] ∧ (s.thread = some .exited ∨ s.thread = none)
  | .restore c => s.closed = false ∧ (∃ k ops, s.prog = .restore k :: ops ∧ s.saved[k]? = some c) ∧ ∃ m, At s.ps m
  | .close => s.closed = true ∧ (∃ ops, s.prog = .close :: ops) ∧ ∃ m, At s.ps m
  | .getIndex c => s.closed = false ∧ s.nextIndex = none ∧ (∃ ops, s.prog = .index :: ops) ∧ s.state = some c ∧ ∃ m, At s.ps m
  | .setIndex i => s.closed = false ∧ (∃ ops, s.prog = .setIndex i :: ops) ∧ ∃ m, At s.ps m

def TPPcOk (x : Nat → Option (Py α)) (At : p.S → Nat → Prop) (Ck : p.C → Nat → Prop) (size : Nat) (s : TPSys p) (pos : Nat) :
    TPConsumer α p.C → Prop
  | .idle => (s.thread = none ∧ s.buf = [] ∧ (s.closed = false → At s.ps pos)) ∨
      (TPRunning x At Ck s pos ∧ s.closed = false ∧ 0 < size ∧ s.state ≠ none)
  | .get => s.closed = false ∧ 0 < size ∧ (∃ ops, s.prog = .next :: ops) ∧ TPRunning x At Ck s pos
  | .clear1 k => (∃ t, s.thread = some t) ∧ s.stop = true ∧ 0 < size ∧ TPContOk x At s pos k
  | .join k => (∃ t, s.thread = some t ∧ (t = .read ∨ (∃ e, t = .put e) → s.buf = [])) ∧ s.stop = true ∧ 0 < size ∧ TPContOk x At s pos k
  | .clear2 k => s.thread = none ∧ 0 < size ∧ TPContOk x At s pos k

/-- What is known about index calls of the parent at the positions `i` with `idx i`: if there are any, the stream has no
failing element. -/
structure IdxStream (p : Iter α) (x : Nat → Option (Py α)) (idx : Nat → Bool) (At : p.S → Nat → Prop) : Prop where
  errs : ∀ {i}, idx i = true → ∀ n e, x n ≠ some (.error e)
  getIdx : ∀ {s n}, At s n → idx n = true → p.getIdx s = .ok n
  setIdx : ∀ {s n} {i : Nat}, At s n → idx i = true → ∃ s', p.setIdx s i = (s', none) ∧ At s' i

theorem IdxStream.no : IdxStream p x (fun _ => false) At :=
  ⟨(by intro i h; cases h), (by intro s n _ h; cases h), (by intro s n i _ h; cases h)⟩

/-- The state to be saved is that of position `last`, and so is the index. -/
def TPIdxOk (idx : Nat → Bool) (Ck : p.C → Nat → Prop) (s : TPSys p) (pos last : Nat) (moved : Bool) : Prop :=
  (∀ c, s.state = some c → Ck c last) ∧ (s.state = none → moved = true ∧ ∃ i, idx i = true) ∧
  ((∃ i, idx i = true) → pos = last ∧ ∀ i, s.nextIndex = some i → i = last)

/-- The whole invariant: the user has position `pos`, the state to be saved is that of position `last`, and the outcomes so
far followed by the ideal outcomes of the remaining calls are `total`. -/
def TPGood (x : Nat → Option (Py α)) (At : p.S → Nat → Prop) (Ck : p.C → Nat → Prop) (idx : Nat → Bool) (size : Nat)
    (total : List (Res α ⊕ Int)) (s : TPSys p) : Prop :=
  ∃ pos last moved sp rest, TPPcOk x At Ck size s pos s.pc ∧ TPIdxOk idx Ck s pos last moved ∧ s.saved.length = sp.length ∧
    (∀ (i : Nat) c q, s.saved[i]? = some c → sp[i]? = some q → Ck c q) ∧
    idealRun x idx pos last moved s.closed sp s.prog = some rest ∧ s.outs ++ rest = total ∧
    (size = 0 → s.closed = false ∧ ∀ op, op ∈ s.prog → op ≠ .start ∧ op ≠ .close)

theorem tpGood_init (sim : SimStream p x At Ck) {prog : List TOp} {total : List (Res α ⊕ Int)} {idx : Nat → Bool}
    (hrun : idealRun x idx 0 0 false false [] prog = some total) (hz : size = 0 → ∀ op, op ∈ prog → op ≠ .start ∧ op ≠ .close) :
    TPGood x At Ck idx size total (tpInit p prog) := by
  obtain ⟨g1, g2⟩ := sim.get sim.init
  exact ⟨0, 0, false, [], total, Or.inl ⟨rfl, rfl, fun _ => g1⟩,
    ⟨(by intro c hc; cases hc; exact g2), (by intro hc; cases hc), fun _ => ⟨rfl, by intro i hi; cases hi; rfl⟩⟩, rfl, by intro i c q h; simp [tpInit] at h, hrun, rfl, fun h => ⟨rfl, hz h⟩⟩

theorem option_map_some {f : β → γ} {o : Option β} {c : γ} (h : o.map f = some c) : ∃ b, o = some b ∧ f b = c := by
  cases o with
  | none => cases h
  | some b => exact ⟨b, rfl, by simpa using h⟩

theorem saved_snoc {C : Type} {Ck : C → Nat → Prop} {l : List C} {sp : List Nat} (hlen : l.length = sp.length)
    (h : ∀ (i : Nat) c q, l[i]? = some c → sp[i]? = some q → Ck c q) {c : C} {m : Nat} (hc : Ck c m) :
    (l ++ [c]).length = (sp ++ [m]).length ∧
    ∀ (i : Nat) d q, (l ++ [c])[i]? = some d → (sp ++ [m])[i]? = some q → Ck d q := by
  refine ⟨by simp [hlen], ?_⟩
  intro i d q hd hq
  by_cases hi : i < l.length
  · rw [List.getElem?_append_left hi] at hd
    rw [List.getElem?_append_left (by omega)] at hq
    exact h i d q hd hq
  · rw [List.getElem?_append_right (by omega)] at hd
    rw [List.getElem?_append_right (by omega)] at hq
    by_cases hi' : i - l.length = 0
    · rw [hi'] at hd
      rw [← hlen, hi'] at hq
      cases hd; cases hq
      exact hc
    · rw [List.getElem?_eq_none (by simp; omega)] at hd
      cases hd

theorem ev_unique {β : Type} {f : Nat → Option β} {a b : β} (h1 : Ev (fun F => f F = some a)) (h2 : Ev (fun F => f F = some b)) : a = b := by
  refine Ev.const (h1.mono₂ h2 ?_)
  intro F e1 e2
  rw [e1] at e2
  exact Option.some.inj e2

theorem idealRun_next_item {idx : Nat → Bool} {pos last : Nat} {mv : Bool} {sp : List Nat} {ops : List TOp}
    {rest : List (Res α ⊕ Int)} {a : α}
    (h : idealRun x idx pos last mv false sp (.next :: ops) = some rest) (ha : x pos = some (.ok a)) :
    ∃ rest', idealRun x idx (pos + 1) (pos + 1) false false sp ops = some rest' ∧ rest = .inl (.item a) :: rest' := by
  simp only [idealRun, ha] at h
  obtain ⟨r', h1, h2⟩ := option_map_some h
  exact ⟨r', h1, h2.symm⟩

theorem idealRun_next_err {idx : Nat → Bool} {pos last : Nat} {mv : Bool} {sp : List Nat} {ops : List TOp}
    {rest : List (Res α ⊕ Int)}
    (h : idealRun x idx pos last mv false sp (.next :: ops) = some rest) (ha : ∀ a, streamRes x pos ≠ .item a) :
    ∃ rest', idealRun x idx (streamPos x pos) last mv false sp ops = some rest' ∧ rest = .inl (streamRes x pos) :: rest' := by
  simp only [idealRun] at h
  unfold streamRes at ha
  unfold streamRes streamPos
  cases hx : x pos with
  | none =>
    rw [hx] at h
    obtain ⟨r', h1, h2⟩ := option_map_some h
    exact ⟨r', h1, h2.symm⟩
  | some q =>
    rw [hx] at h ha
    cases q with
    | ok a => exact absurd rfl (ha a)
    | error e =>
      obtain ⟨r', h1, h2⟩ := option_map_some h
      exact ⟨r', h1, h2.symm⟩

/-- Where no element fails, a call of `next` without an element does not move. -/
theorem streamPos_of_not_item {idx : Nat → Bool} {n : Nat} (h : IdxStream p x idx At) (hi : ∃ i, idx i = true)
    (hr : ∀ a, streamRes x n ≠ .item a) : streamPos x n = n := by
  obtain ⟨i, hi⟩ := hi
  unfold streamPos
  unfold streamRes at hr
  cases hx : x n with
  | none => rfl
  | some q =>
    rw [hx] at hr
    cases q with
    | ok a => exact absurd rfl (hr a)
    | error e => exact absurd hx (h.errs hi n e)

theorem TPIdxOk.notItem {idx : Nat → Bool} {s : TPSys p} {pos last : Nat} {mv : Bool} (h : IdxStream p x idx At)
    (hr : ∀ a, streamRes x pos ≠ .item a) (h2 : TPIdxOk idx Ck s pos last mv) : TPIdxOk idx Ck s (streamPos x pos) last mv :=
  ⟨h2.1, h2.2.1, fun hi => ⟨(streamPos_of_not_item h hi hr).trans (h2.2.2 hi).1, (h2.2.2 hi).2⟩⟩

/-- After an element. -/
theorem TPIdxOk.item {idx : Nat → Bool} {s s' : TPSys p} {pos last : Nat} {mv : Bool} {c : p.C} (h2 : TPIdxOk idx Ck s pos last mv)
    (hc : Ck c (pos + 1)) (e1 : s'.state = some c) (e2 : s'.nextIndex = s.nextIndex.map (· + 1)) :
    TPIdxOk idx Ck s' (pos + 1) (pos + 1) false := by
  refine ⟨?_, ?_, ?_⟩
  · intro d hd
    rw [e1] at hd
    cases hd
    exact hc
  · intro hd
    rw [e1] at hd
    cases hd
  · intro hi
    refine ⟨rfl, ?_⟩
    intro i hn
    rw [e2] at hn
    obtain ⟨j, hj, rfl⟩ := option_map_some hn
    have := (h2.2.2 hi).2 j hj
    have := (h2.2.2 hi).1
    omega

/-- After `set_state`. -/
theorem TPIdxOk.restored {idx : Nat → Bool} {s : TPSys p} {q : Nat} {c : p.C} (hc : Ck c q) (e1 : s.state = some c)
    (e2 : s.nextIndex = none) : TPIdxOk idx Ck s q q false := by
  refine ⟨?_, ?_, ?_⟩
  · intro d hd
    rw [e1] at hd
    cases hd
    exact hc
  · intro hd
    rw [e1] at hd
    cases hd
  · intro hi
    refine ⟨rfl, ?_⟩
    intro i hn
    rw [e2] at hn
    cases hn

/-- After `set_next_index`. -/
theorem TPIdxOk.moved {idx : Nat → Bool} {s : TPSys p} {i : Nat} (hi : idx i = true) (e1 : s.state = none)
    (e2 : s.nextIndex = some (i : Int)) : TPIdxOk idx Ck s i i true := by
  refine ⟨?_, ?_, ?_⟩
  · intro d hd
    rw [e1] at hd
    cases hd
  · intro _
    exact ⟨rfl, i, hi⟩
  · intro _
    refine ⟨rfl, ?_⟩
    intro j hn
    rw [e2] at hn
    cases hn
    rfl

/-- `get_state` is right, if the parent is at the user's position or the state is known. -/
theorem TPIdxOk.state {idx : Nat → Bool} {s : TPSys p} {pos last : Nat} {mv : Bool} (sim : SimStream p x At Ck)
    (h2 : TPIdxOk idx Ck s pos last mv) (hat : s.state ≠ none ∨ At s.ps pos) :
    Ck (tpState s).2 last ∧ ∀ m, At s.ps m → At (tpState s).1 m := by
  unfold tpState
  cases hs : s.state with
  | some c => exact ⟨h2.1 c hs, fun m hm => hm⟩
  | none =>
    rcases hat with hat | hat
    · exact absurd hs hat
    · have hp := (h2.2.2 (h2.2.1 hs).2).1
      rw [hp] at hat
      exact ⟨(sim.get hat).2, fun m hm => (sim.get hm).1⟩

theorem streamRes_item {n : Nat} {a : α} (h : streamRes x n = .item a) : x n = some (.ok a) ∧ streamPos x n = n + 1 := by
  unfold streamRes at h
  unfold streamPos
  cases hx : x n with
  | none => rw [hx] at h; cases h
  | some q =>
    rw [hx] at h
    cases q with
    | ok b => cases h; exact ⟨rfl, rfl⟩
    | error e => cases h

end
end Grain
