import Verif.ProcPrefetch.Model
import Verif.ThreadPrefetch.Lemmas
namespace Grain

/-! Invariant of the process prefetch system. -/

section
variable {p : Iter α} {x : Nat → Option (Py α)} {At : p.S → Nat → Prop} {Ck : p.C → Nat → Prop} {size : Nat}
variable {idx : Nat → Bool} {keep crashes : Bool}

def ppMarkers (l : List (PPEntry α C)) : Nat := l.countP ppIsMarker

/-- The entries after the last marker. -/
def ppAfter : List (PPEntry α C) → List (PPEntry α C)
  | [] => []
  | e :: es => if ppMarkers es = 0 then (if ppIsMarker e then es else e :: es) else ppAfter es

theorem ppMarkers_cons (e : PPEntry α C) (es : List (PPEntry α C)) :
    ppMarkers (e :: es) = ppMarkers es + (if ppIsMarker e then 1 else 0) := by
  simp [ppMarkers, List.countP_cons]

theorem ppMarkers_append (l l' : List (PPEntry α C)) : ppMarkers (l ++ l') = ppMarkers l + ppMarkers l' := by
  simp [ppMarkers]

theorem ppAfter_of_none {l : List (PPEntry α C)} (h : ppMarkers l = 0) : ppAfter l = l := by
  cases l with
  | nil => rfl
  | cons e es =>
    rw [ppMarkers_cons] at h
    have h1 : ppMarkers es = 0 := by omega
    have h2 : ppIsMarker e = false := by
      cases h2 : ppIsMarker e with
      | false => rfl
      | true => rw [h2] at h; simp at h
    simp [ppAfter, h1, h2]

theorem ppAfter_marker (es : List (PPEntry α C)) : ppAfter (.marker :: es) = ppAfter es := by
  by_cases h : ppMarkers es = 0
  · rw [ppAfter_of_none h]; simp [ppAfter, h, ppIsMarker]
  · simp [ppAfter, h]

theorem ppAfter_cons {e : PPEntry α C} {es : List (PPEntry α C)} (h : ppMarkers es ≠ 0) : ppAfter (e :: es) = ppAfter es := by
  simp [ppAfter, h]

theorem ppAfter_snoc_marker (l : List (PPEntry α C)) : ppAfter (l ++ [.marker]) = [] := by
  induction l with
  | nil => simp [ppAfter, ppMarkers, ppIsMarker]
  | cons e es ih =>
    rw [List.cons_append, ppAfter_cons, ih]
    rw [ppMarkers_append]
    simp [ppMarkers, ppIsMarker]

theorem ppAfter_snoc {e : PPEntry α C} (l : List (PPEntry α C)) (he : ppIsMarker e = false) : ppAfter (l ++ [e]) = ppAfter l ++ [e] := by
  induction l with
  | nil => simp [ppAfter, ppMarkers, he]
  | cons y ys ih =>
    have hm : ppMarkers (ys ++ [e]) = ppMarkers ys := by
      rw [ppMarkers_append]
      simp [ppMarkers, he]
    by_cases h : ppMarkers ys = 0
    · simp only [List.cons_append, ppAfter, hm, h, if_true]
      cases ppIsMarker y <;> simp
    · rw [List.cons_append, ppAfter_cons (by omega), ppAfter_cons h, ih]

/-- The entries follow the stream from position `n` to `m`; `b` tells that the last one is an exception. -/
inductive PPBufAt (x : Nat → Option (Py α)) (Ck : C → Nat → Prop) : Nat → List (PPEntry α C) → Nat → Bool → Prop where
  | nil {n} : PPBufAt x Ck n [] n false
  | elem {n a c id es m e} : x n = some (.ok a) → Ck c (n + 1) → PPBufAt x Ck (n + 1) es m e →
      PPBufAt x Ck n (.elem a c id :: es) m e
  | err {n} : (∀ a, streamRes x n ≠ .item a) → PPBufAt x Ck n [.err (streamRes x n)] (streamPos x n) true

theorem PPBufAt.snoc_elem {C : Type} {Ck : C → Nat → Prop} {n m : Nat} {l : List (PPEntry α C)} {b : Bool} (h : PPBufAt x Ck n l m b)
    (hb : b = false) {a : α} {c : C} {id : List Nat} (ha : x m = some (.ok a)) (hc : Ck c (m + 1)) :
    PPBufAt x Ck n (l ++ [.elem a c id]) (m + 1) false := by
  induction h with
  | nil => exact .elem ha hc .nil
  | elem h1 h2 _ ih => exact .elem h1 h2 (ih hb ha hc)
  | err _ => cases hb

theorem PPBufAt.snoc_err {C : Type} {Ck : C → Nat → Prop} {n m : Nat} {l : List (PPEntry α C)} {b : Bool} (h : PPBufAt x Ck n l m b)
    (hb : b = false) (hr : ∀ a, streamRes x m ≠ .item a) : PPBufAt x Ck n (l ++ [.err (streamRes x m)]) (streamPos x m) true := by
  induction h with
  | nil => exact .err hr
  | elem h1 h2 _ ih => exact .elem h1 h2 (ih hb hr)
  | err _ => cases hb

theorem PPBufAt.last {C : Type} {Ck : C → Nat → Prop} {n m : Nat} {l l' : List (PPEntry α C)} {b : Bool} (h : PPBufAt x Ck n l' m b)
    {e : PPEntry α C} (hl : l' = l ++ [e]) : b = ppIsErr e ∧ ppIsMarker e = false := by
  induction h generalizing l with
  | nil => simp at hl
  | elem h1 h2 h3 ih =>
    cases l with
    | nil =>
      simp only [List.nil_append, List.cons.injEq] at hl
      obtain ⟨rfl, rfl⟩ := hl
      cases h3
      exact ⟨rfl, rfl⟩
    | cons y l =>
      simp only [List.cons_append, List.cons.injEq] at hl
      exact ih hl.2
  | err _ =>
    cases l with
    | nil =>
      simp only [List.nil_append, List.cons.injEq, and_true] at hl
      subst hl
      exact ⟨rfl, rfl⟩
    | cons y l => simp at hl

/-- A prefix of a good buffer is good. -/
theorem PPBufAt.dropLast {C : Type} {Ck : C → Nat → Prop} {n m : Nat} {l l' k : List (PPEntry α C)} {b : Bool} (h : PPBufAt x Ck n l' m b)
    (hl : l' = l ++ k) : ∃ m b, PPBufAt x Ck n l m b := by
  induction h generalizing l with
  | nil =>
    obtain ⟨rfl, _⟩ := List.append_eq_nil_iff.1 hl.symm
    exact ⟨_, _, .nil⟩
  | elem h1 h2 h3 ih =>
    cases l with
    | nil => exact ⟨_, _, .nil⟩
    | cons y l =>
      simp only [List.cons_append, List.cons.injEq] at hl
      obtain ⟨m, b, h⟩ := ih hl.2
      rw [← hl.1]
      exact ⟨m, b, .elem h1 h2 h⟩
  | @err n hr =>
    cases l with
    | nil => exact ⟨_, _, .nil⟩
    | cons y l =>
      simp only [List.cons_append, List.cons.injEq] at hl
      obtain ⟨rfl, hl⟩ := hl
      obtain ⟨rfl, _⟩ := List.append_eq_nil_iff.1 hl.symm
      exact ⟨_, _, .err hr⟩

/-- The worker's iterator is at `m`, and so is its index, if it has one and index calls are considered. -/
def PPItAt (At : p.S → Nat → Prop) (idx : Nat → Bool) (w : PPWorker p) (m : Nat) : Prop :=
  At w.it m ∧ ((∃ i, idx i = true) → ∀ j, w.nextIndex = some j → j = m)

/-- The request asks for position `m`. -/
def PPReqAt (idx : Nat → Bool) (Ck : C → Nat → Prop) : PPReq C → Nat → Prop
  | .state c, m => Ck c m
  | .index i, m => i = m ∧ idx i = true

/-- State and index of an entry are those of position `m`. -/
def PPSnapAt (idx : Nat → Bool) (Ck : C → Nat → Prop) (e : C × Option Int) (m : Nat) : Prop :=
  Ck e.1 m ∧ ((∃ i, idx i = true) → ∀ j, e.2 = some j → j = m)

/-- The state to be saved is that of position `last`, and so is the index. -/
def PPStOk (idx : Nat → Bool) (Ck : p.C → Nat → Prop) (s : PPSys p) (last : Nat) : Prop :=
  (∀ c, s.state = some c → Ck c last) ∧
  (s.state = none → ∃ j : Int, s.nextIndex = some j ∧ j = last ∧ (idx last = true ∨ last = 0)) ∧
  ((∃ i, idx i = true) → ∀ j, s.nextIndex = some j → j = last)

/-- State and index are what the request asks for. -/
def PPAsked (s : PPSys p) : PPReq p.C → Prop
  | .state c => s.state = some c ∧ s.nextIndex = none
  | .index i => s.state = none ∧ s.nextIndex = some i

/-- The entry the worker is about to put. -/
def ppPending : PPPc α C R → List (PPEntry α C)
  | .put e => [e]
  | _ => []

/-- The requests taken by the worker whose marker has not been put (`l`: lost in a crash). -/
def ppTaken (l : Nat) : Option (PPWorker p) → Nat
  | none => 0
  | some w => match w.pc with
    | .mark _ => 1
    | .dead => l
    | _ => 0

/-- The worker's part of the invariant, in all phases. -/
structure PPWorkerOk (At : p.S → Nat → Prop) (Ck : p.C → Nat → Prop) (idx : Nat → Bool) (stop : Bool) (w : PPWorker p) : Prop where
  it : ∃ m, PPItAt At idx w m
  mark : ∀ c, w.pc = .mark c ∨ w.pc = .apply c → (∃ m, PPReqAt idx Ck c m) ∧ w.exh = false
  leaving : w.pc = .leaving ∨ w.pc = .exited → stop = true
  noFail : ∀ e, w.pc ≠ .failClear e ∧ w.pc ≠ .failPut e
  noMarker : ∀ e, w.pc = .put e → ppIsMarker e = false

/-- What the worker will put after the last marker follows the stream from `pos`. -/
def PPWorkerAt (x : Nat → Option (Py α)) (At : p.S → Nat → Prop) (Ck : p.C → Nat → Prop) (idx : Nat → Bool) (buf : List (PPEntry α (PPSnap p))) (l pos : Nat)
    (w : PPWorker p) : Prop :=
  match w.pc with
  | .mark c => PPReqAt idx Ck c pos
  | .apply c => PPReqAt idx Ck c pos ∧ ppAfter buf = []
  | .dead => l = 0 → ∃ m b, PPBufAt x (PPSnapAt idx Ck) pos (ppAfter buf) m b
  | .put e => ∃ m, PPBufAt x (PPSnapAt idx Ck) pos (ppAfter buf ++ [e]) m (ppIsErr e) ∧ PPItAt At idx w m
  | _ => ∃ m, PPBufAt x (PPSnapAt idx Ck) pos (ppAfter buf) m w.exh ∧ PPItAt At idx w m

/-- The next element the user will receive is that at `pos`. -/
def PPValid (x : Nat → Option (Py α)) (At : p.S → Nat → Prop) (Ck : p.C → Nat → Prop) (idx : Nat → Bool) (s : PPSys p) (l pos : Nat) : Prop :=
  match s.reqs.getLast?, s.worker with
  | some c, _ => PPReqAt idx Ck c pos
  | none, none => pos = 0 ∧ s.buf = []
  | none, some w => PPWorkerAt x At Ck idx s.buf l pos w

/-- The counters, as long as the iterator is open; `d` is 1 between putting a request and counting it. -/
def PPCount (s : PPSys p) (l d : Nat) : Prop :=
  s.reqs.length = s.reqCount + d ∧ s.setCount = ppMarkers s.buf + ppTaken l s.worker + s.reqCount

/-- The worker has left its loop. -/
def ppLeft (w : PPWorker p) : Prop := w.pc = .leaving ∨ w.pc = .exited ∨ w.pc = .dead

/-- What the main process will do after stopping the worker is what the call under way asks for. -/
def PPContOk (x : Nat → Option (Py α)) (Ck : p.C → Nat → Prop) (idx : Nat → Bool) (crashes : Bool) (s : PPSys p) (v : PView) (l : Nat) : PPCont α → Prop
  | .raise r => s.over = false ∧ s.closed = false ∧ v.over = false ∧ v.closed = false ∧ PPStOk idx Ck s v.last ∧
      (∃ ops, s.prog = .next :: ops) ∧ PPCount s l 0 ∧ s.setCount = 0 ∧
      ((r = streamRes x v.pos ∧ ∀ a, r ≠ .item a) ∨ (crashes = true ∧ r = .fail .runtimeError))
  | .close => s.over = v.over ∧ s.closed = true ∧ PPStOk idx Ck s v.last ∧ (∃ ops, s.prog = .close :: ops) ∧
      ∀ w, s.worker = some w → ppLeft w ∨ s.reqs.length = s.reqCount

def PPMainOk (x : Nat → Option (Py α)) (At : p.S → Nat → Prop) (Ck : p.C → Nat → Prop) (idx : Nat → Bool) (crashes : Bool) (s : PPSys p) (v : PView) (l : Nat) :
    PPMain α (PPReq p.C) → Prop
  | .idle => s.over = v.over ∧ s.closed = v.closed ∧ PPStOk idx Ck s v.last ∧
      (s.worker ≠ none → s.stop = false ∧ s.closed = false) ∧
      (s.closed = false → PPCount s l 0 ∧ (s.over = false → PPValid x At Ck idx s l v.pos))
  | .get => s.over = false ∧ s.closed = false ∧ v.over = false ∧ v.closed = false ∧ PPStOk idx Ck s v.last ∧ (∃ ops, s.prog = .next :: ops) ∧
      s.worker ≠ none ∧ s.stop = false ∧ PPCount s l 0 ∧ PPValid x At Ck idx s l v.pos
  | .set1 c => (∃ op ops q, s.prog = op :: ops ∧ PPReqAt idx Ck c q ∧
        viewStep x idx v op = some ({ pos := q, last := q, over := false, closed := s.closed, saved := v.saved }, [])) ∧ PPAsked s c ∧
      (s.worker ≠ none → s.stop = false ∧ s.closed = false) ∧ (s.closed = false → PPCount s l 0)
  | .set2 c => (∃ op ops q, s.prog = op :: ops ∧ PPReqAt idx Ck c q ∧
        viewStep x idx v op = some ({ pos := q, last := q, over := false, closed := s.closed, saved := v.saved }, [])) ∧ PPAsked s c ∧
      (s.worker ≠ none → s.stop = false ∧ s.closed = false) ∧ (s.closed = false → PPCount s l 1 ∧ s.reqs.getLast? = some c)
  | .stop1 k => s.worker ≠ none ∧ s.stop = true ∧ PPContOk x Ck idx crashes s v l k
  | .stop2 k => s.worker ≠ none ∧ s.stop = true ∧ PPContOk x Ck idx crashes s v l k
  | .join k => s.worker ≠ none ∧ s.stop = true ∧ PPContOk x Ck idx crashes s v l k
  | .stop3 k => s.worker ≠ none ∧ s.stop = true ∧ PPContOk x Ck idx crashes s v l k ∧ ∀ w, s.worker = some w → w.pc = .exited ∨ w.pc = .dead

/-- The whole invariant: the calls made so far have the ideal outcomes. -/
def PPGood (x : Nat → Option (Py α)) (At : p.S → Nat → Prop) (Ck : p.C → Nat → Prop) (idx : Nat → Bool) (crashes : Bool) (prog : List TOp) (s : PPSys p) : Prop :=
  ∃ v l done, PPMainOk x At Ck idx crashes s v l s.pc ∧
    (∀ w, s.worker = some w → PPWorkerOk At Ck idx s.stop w) ∧ (∀ c ∈ s.reqs, ∃ m, PPReqAt idx Ck c m) ∧
    s.saved.length = v.saved.length ∧ (∀ (i : Nat) c q, s.saved[i]? = some c → v.saved[i]? = some q → Ck c q) ∧
    prog = done ++ s.prog ∧ ViewRun x idx crashes .start done s.outs v ∧ (crashes = false → l = 0 ∧ ∀ w, s.worker = some w → w.pc ≠ .dead)

theorem ppGood_init {prog : List TOp} :
    PPGood x At Ck idx crashes prog (ppInit p prog) := by
  refine ⟨.start, 0, [], ⟨rfl, rfl, ⟨(by intro c h; cases h), fun _ => ⟨0, rfl, rfl, Or.inr rfl⟩, (by intro _ j h; cases h; rfl)⟩, fun h => absurd rfl h, fun _ => ⟨⟨rfl, rfl⟩, fun _ => ⟨rfl, rfl⟩⟩⟩, (by intro w h; cases h),
    (by intro c h; cases h), rfl, (by intro i c q h; simp [ppInit] at h), rfl, .nil, fun _ => ⟨rfl, (by intro w h; cases h)⟩⟩

end
end Grain
