import Verif.ProcPrefetch.Lemmas
namespace Grain

section
variable {p : Iter α} {x : Nat → Option (Py α)} {At : p.S → Nat → Prop} {Ck : p.C → Nat → Prop} {size : Nat}
variable {idx : Nat → Bool} {keep crashes : Bool} {prog : List TOp}

private theorem PPStOk.of_eq {s s' : PPSys p} {n : Nat} (h : PPStOk idx Ck s n) (e1 : s'.state = s.state) (e2 : s'.nextIndex = s.nextIndex) :
    PPStOk idx Ck s' n := by
  unfold PPStOk
  rw [e1, e2]
  exact h

private theorem PPStOk.known {s : PPSys p} {n : Nat} {c : p.C} (hc : Ck c n) (e1 : s.state = some c)
    (e2 : (∃ i, idx i = true) → ∀ j, s.nextIndex = some j → j = n) : PPStOk idx Ck s n := by
  refine ⟨?_, ?_, e2⟩
  · intro d hd
    rw [e1] at hd
    cases hd
    exact hc
  · intro hd
    rw [e1] at hd
    cases hd

private theorem PPStOk.snap {s : PPSys p} {n : Nat} {c : PPSnap p} (h : PPSnapAt idx Ck c n) (e1 : s.state = some c.1)
    (e2 : s.nextIndex = c.2) : PPStOk idx Ck s n :=
  .known h.1 e1 (by rw [e2]; exact h.2)

private theorem PPStOk.asked {s s' : PPSys p} {n : Nat} {r : PPReq p.C} (h : PPReqAt idx Ck r n) (h' : PPAsked s r)
    (e1 : s'.state = s.state := by rfl) (e2 : s'.nextIndex = s.nextIndex := by rfl) : PPStOk idx Ck s' n := by
  cases r with
  | state c => exact .known h (e1.trans h'.1) (by rw [e2, h'.2]; intro _ j hj; cases hj)
  | index i =>
    obtain ⟨rfl, hi⟩ := h
    refine ⟨?_, fun _ => ⟨i, e2.trans h'.2, rfl, Or.inl hi⟩, ?_⟩
    · intro c hc
      rw [e1, h'.1] at hc
      cases hc
    · intro _ j hj
      rw [e2, h'.2] at hj
      cases hj
      rfl

/-- A step of the worker. -/
private theorem good_worker {s : PPSys p} (h : PPGood x At Ck idx crashes prog s) {w w' : PPWorker p} {buf' : List (PPEntry α (PPSnap p))}
    {reqs' : List (PPReq p.C)} {n' made' : Nat} {freed' : List Nat} (f : Nat → Nat) (hw : s.worker = some w)
    (hend : w.pc ≠ .exited ∧ w.pc ≠ .dead)
    (hok : PPWorkerOk At Ck idx s.stop w → (∀ c ∈ s.reqs, ∃ m, PPReqAt idx Ck c m) → PPWorkerOk At Ck idx s.stop w')
    (hclose : s.reqs.length = s.reqCount → ppLeft w' ∨ reqs'.length = n') (hleft : w.pc = .leaving → ppLeft w')
    (hsub : ∀ c ∈ reqs', c ∈ s.reqs) (hdead : crashes = false → f = id ∧ w'.pc ≠ .dead)
    (hcount : ∀ l d, PPWorkerOk At Ck idx s.stop w → PPCount s l d → (s.stop = true → s.setCount = 0 ∧ d = 0) →
      PPCount { s with buf := buf', reqs := reqs', reqCount := n', worker := some w', made := made', freed := freed' } (f l) d)
    (hvalid : ∀ l pos, PPWorkerOk At Ck idx s.stop w → s.stop = false → PPCount s l 0 → PPValid x At Ck idx s l pos →
      PPValid x At Ck idx { s with buf := buf', reqs := reqs', reqCount := n', worker := some w', made := made', freed := freed' } (f l) pos)
    (hlast : ∀ l c, PPWorkerOk At Ck idx s.stop w → s.stop = false → PPCount s l 1 → s.reqs.getLast? = some c → reqs'.getLast? = some c) :
    PPGood x At Ck idx crashes prog
      { s with buf := buf', reqs := reqs', reqCount := n', worker := some w', made := made', freed := freed' } := by
  obtain ⟨v, l, done, h1, h2, h3, h4, h5, h6, h7, h8⟩ := h
  have hwok := h2 w hw
  have hne : s.worker ≠ none := by rw [hw]; simp
  refine ⟨v, f l, done, ?_, ?_, fun c hc => h3 c (hsub c hc), h4, h5, h6, h7, ?_⟩
  · show PPMainOk x At Ck idx crashes _ v (f l) s.pc
    generalize s.pc = q at h1
    have hcont : s.stop = true → ∀ k, PPContOk x Ck idx crashes s v l k → PPContOk x Ck idx crashes
        { s with buf := buf', reqs := reqs', reqCount := n', worker := some w', made := made', freed := freed' } v (f l) k := by
      intro hst k hk
      cases k with
      | raise r =>
        obtain ⟨a1, a2, a3, a4, a5, a6, a7, a8, a9⟩ := hk
        exact ⟨a1, a2, a3, a4, a5, a6, hcount l 0 hwok a7 (fun _ => ⟨a8, rfl⟩), a8, a9⟩
      | close =>
        obtain ⟨a1, a2, a3, a4, a5⟩ := hk
        refine ⟨a1, a2, a3, a4, ?_⟩
        intro w'' hw''
        cases hw''
        rcases a5 w hw with (h | h | h) | h
        · exact Or.inl (hleft h)
        · exact absurd h hend.1
        · exact absurd h hend.2
        · exact hclose h
    cases q with
    | idle =>
      obtain ⟨a1, a2, a3, a4, a5⟩ := h1
      obtain ⟨b1, b2⟩ := a4 hne
      obtain ⟨c1, c2⟩ := a5 b2
      exact ⟨a1, a2, a3, fun _ => ⟨b1, b2⟩, fun _ => ⟨hcount l 0 hwok c1 (by rw [b1]; intro hh; cases hh),
        fun ho => hvalid l _ hwok b1 c1 (c2 ho)⟩⟩
    | get =>
      obtain ⟨a1, a2, a3, a4, a5, a6, a7, a8, a9, a10⟩ := h1
      exact ⟨a1, a2, a3, a4, a5, a6, by simp, a8, hcount l 0 hwok a9 (by rw [a8]; intro hh; cases hh), hvalid l _ hwok a8 a9 a10⟩
    | set1 c =>
      obtain ⟨a1, a2, a3, a4⟩ := h1
      obtain ⟨b1, b2⟩ := a3 hne
      exact ⟨a1, a2, fun _ => ⟨b1, b2⟩, fun _ => hcount l 0 hwok (a4 b2) (by rw [b1]; intro hh; cases hh)⟩
    | set2 c =>
      obtain ⟨a1, a2, a3, a4⟩ := h1
      obtain ⟨b1, b2⟩ := a3 hne
      obtain ⟨c1, c2⟩ := a4 b2
      exact ⟨a1, a2, fun _ => ⟨b1, b2⟩, fun _ => ⟨hcount l 1 hwok c1 (by rw [b1]; intro hh; cases hh), hlast l c hwok b1 c1 c2⟩⟩
    | stop1 k => exact ⟨by simp, h1.2.1, hcont h1.2.1 k h1.2.2⟩
    | stop2 k => exact ⟨by simp, h1.2.1, hcont h1.2.1 k h1.2.2⟩
    | join k => exact ⟨by simp, h1.2.1, hcont h1.2.1 k h1.2.2⟩
    | stop3 k =>
      rcases h1.2.2.2 w hw with hh | hh
      · exact absurd hh hend.1
      · exact absurd hh hend.2
  · intro w'' hw''
    cases hw''
    exact hok hwok h3
  · intro hc
    obtain ⟨hf, hd⟩ := hdead hc
    rw [hf]
    exact ⟨(h8 hc).1, by intro w'' hw''; cases hw''; exact hd⟩

private theorem getLast_none {l : List β} (h : l.getLast? = none) : l = [] := by simpa using h

/-- A step of the worker that touches nothing shared. -/
private theorem good_local {s : PPSys p} (h : PPGood x At Ck idx crashes prog s) {w w' : PPWorker p} (made' : Nat) (hw : s.worker = some w)
    (hend : w.pc ≠ .exited ∧ w.pc ≠ .dead) (hend' : w'.pc ≠ .dead) (htaken : ∀ l, ppTaken l (some w') = ppTaken l (some w))
    (hleft : w.pc = .leaving → ppLeft w') (hok : PPWorkerOk At Ck idx s.stop w → PPWorkerOk At Ck idx s.stop w')
    (hat : ∀ l pos, PPWorkerOk At Ck idx s.stop w → s.stop = false → PPWorkerAt x At Ck idx s.buf l pos w → PPWorkerAt x At Ck idx s.buf l pos w') :
    PPGood x At Ck idx crashes prog { s with worker := some w', made := made' } := by
  refine good_worker h (buf' := s.buf) (reqs' := s.reqs) (n' := s.reqCount) (freed' := s.freed) id hw hend (fun h _ => hok h)
    Or.inr hleft (fun c hc => hc) (fun _ => ⟨rfl, hend'⟩) ?_ ?_ (fun l c _ _ _ h => h)
  · intro l d _ hc _
    refine ⟨hc.1, ?_⟩
    have := hc.2
    rw [hw] at this
    show s.setCount = ppMarkers s.buf + ppTaken l (some w') + s.reqCount
    rw [htaken]; exact this
  · intro l pos hwok hst hc hv
    unfold PPValid at hv ⊢
    rw [hw] at hv
    show (match s.reqs.getLast?, some w' with | some c, _ => PPReqAt idx Ck c pos | none, none => _ | none, some w => PPWorkerAt x At Ck idx s.buf l pos w)
    cases hr : s.reqs.getLast? with
    | some c => rw [hr] at hv; exact hv
    | none => rw [hr] at hv; exact hat l pos hwok hst hv

private theorem ok_plain {stop : Bool} {w : PPWorker p} (hm : ∃ m, PPItAt At idx w m) (hp : w.pc = .top ∨ w.pc = .take ∨ w.pc = .work ∨ w.pc = .dead) :
    PPWorkerOk At Ck idx stop w := by
  refine ⟨hm, ?_, ?_, ?_, ?_⟩
  · rintro c (h | h) <;> rw [h] at hp <;> simp at hp
  · rintro (h | h) <;> rw [h] at hp <;> simp at hp
  · intro e
    constructor <;> intro h <;> rw [h] at hp <;> simp at hp
  · intro e h
    rw [h] at hp; simp at hp

private theorem ok_put {stop : Bool} {w : PPWorker p} {e : PPEntry α (PPSnap p)} (hm : ∃ m, PPItAt At idx w m) (hp : w.pc = .put e)
    (he : ppIsMarker e = false) : PPWorkerOk At Ck idx stop w := by
  refine ⟨hm, ?_, ?_, ?_, ?_⟩
  · rintro c (h | h) <;> rw [h] at hp <;> simp at hp
  · rintro (h | h) <;> rw [h] at hp <;> simp at hp
  · intro e
    constructor <;> intro h <;> rw [h] at hp <;> simp at hp
  · intro e' h
    rw [hp] at h; cases h; exact he

private theorem ok_leaving {w : PPWorker p} (hm : ∃ m, PPItAt At idx w m) (hp : w.pc = .leaving ∨ w.pc = .exited) :
    PPWorkerOk At Ck idx true w := by
  refine ⟨hm, ?_, ?_, ?_, ?_⟩
  · rintro c (h | h) <;> rw [h] at hp <;> simp at hp
  · exact fun _ => rfl
  · intro e
    constructor <;> intro h <;> rw [h] at hp <;> simp at hp
  · intro e h
    rw [h] at hp; simp at hp

private theorem ok_mark {stop : Bool} {w : PPWorker p} {c : PPReq p.C} (hm : ∃ m, PPItAt At idx w m) (hp : w.pc = .mark c ∨ w.pc = .apply c)
    (hc : ∃ m, PPReqAt idx Ck c m) (he : w.exh = false) : PPWorkerOk At Ck idx stop w := by
  refine ⟨hm, ?_, ?_, ?_, ?_⟩
  · rintro c' (h | h) <;> rw [h] at hp <;> simp at hp <;> subst hp <;> exact ⟨hc, he⟩
  · rintro (h | h) <;> rw [h] at hp <;> simp at hp
  · intro e
    constructor <;> intro h <;> rw [h] at hp <;> simp at hp
  · intro e h
    rw [h] at hp; simp at hp

private theorem worker_next (sim : SimStream p x At Ck) {s it' : p.S} {m : Nat} {r : Res α} (hat : At s m)
    (hn : Ev (fun F => p.next F s = some (it', r))) : r = streamRes x m ∧ At it' (streamPos x m) := by
  obtain ⟨s', e1, e2⟩ := sim.next hat
  have := ev_unique hn e1
  cases this
  exact ⟨rfl, e2⟩

private theorem start_count {s : PPSys p} {l : Nat} (hw : s.worker = none) (h : PPCount s l 0) {pc' : PPMain α (PPReq p.C)} {prog' : List TOp} :
    PPCount { s with stop := false, worker := some (ppWorker0 p), pc := pc', prog := prog' } l 0 := by
  refine ⟨h.1, ?_⟩
  have := h.2
  rw [hw] at this
  exact this

private theorem start_valid (sim : SimStream p x At Ck) {s : PPSys p} {l pos : Nat} (hw : s.worker = none) (_h : PPCount s l 0)
    (hv : PPValid x At Ck idx s l pos) {pc' : PPMain α (PPReq p.C)} {prog' : List TOp} :
    PPValid x At Ck idx { s with stop := false, worker := some (ppWorker0 p), pc := pc', prog := prog' } l pos := by
  unfold PPValid at hv ⊢
  dsimp only
  cases hl : s.reqs.getLast? with
  | some c => rw [hl] at hv; exact hv
  | none =>
    rw [hl, hw] at hv
    obtain ⟨rfl, hb⟩ := hv
    simp only [PPWorkerAt, ppWorker0]
    rw [hb]
    exact ⟨0, .nil, sim.init, by intro _ j h; cases h; rfl⟩

/-- Removing an entry the validity does not depend on. -/
private theorem pop_valid {s : PPSys p} {l pos : Nat} {e : PPEntry α (PPSnap p)} {es : List (PPEntry α (PPSnap p))} (hv : PPValid x At Ck idx s l pos)
    (hb : s.buf = e :: es) (hne : s.worker ≠ none) {n' : Nat} {freed' : List Nat}
    (hat : ∀ w, s.worker = some w → PPWorkerAt x At Ck idx (e :: es) l pos w → PPWorkerAt x At Ck idx es l pos w) :
    PPValid x At Ck idx { s with buf := es, setCount := n', freed := freed' } l pos := by
  unfold PPValid at hv ⊢
  dsimp only
  cases hl : s.reqs.getLast? with
  | some c => rw [hl] at hv; exact hv
  | none =>
    cases hw : s.worker with
    | none => exact absurd hw hne
    | some w =>
      rw [hl, hw, hb] at hv
      exact hat w hw hv

/-- With no restore pending, the entry at the front of the buffer is the one at the user's position. -/
private theorem get_front {s : PPSys p} {l pos : Nat} {e : PPEntry α (PPSnap p)} {es : List (PPEntry α (PPSnap p))} (hc : PPCount s l 0)
    (hv : PPValid x At Ck idx s l pos) (hne : s.worker ≠ none) (hb : s.buf = e :: es) (hz : s.setCount = 0) (hm : ppIsMarker e = false) :
    (∀ a c id, e = .elem a c id → ∀ s' : PPSys p, s'.buf = es → s'.reqs = s.reqs → s'.worker = s.worker → PPValid x At Ck idx s' l (pos + 1)) ∧
    (∀ a c id, e = .elem a c id → x pos = some (.ok a) ∧ PPSnapAt idx Ck c (pos + 1)) ∧
    (∀ r, e = .err r → r = streamRes x pos ∧ ∀ a, r ≠ .item a) := by
  obtain ⟨c1, c2⟩ := hc
  have hreq : s.reqs = [] := List.length_eq_zero_iff.1 (by omega)
  have hmb : ppMarkers s.buf = 0 := by omega
  have hme : ppMarkers es = 0 := by
    rw [hb, ppMarkers_cons] at hmb; omega
  cases hw : s.worker with
  | none => exact absurd hw hne
  | some w =>
    rw [hw] at c2
    unfold PPValid at hv
    rw [hreq, hw] at hv
    simp only [List.getLast?_nil] at hv
    -- the buffer follows the stream, whatever the worker is doing
    have key : ∃ k m b, PPBufAt x (PPSnapAt idx Ck) pos (e :: es ++ k) m b := by
      cases hp : w.pc <;> simp only [PPWorkerAt, hp, ppAfter_of_none hmb, ppTaken] at hv c2
      case mark => omega
      case apply => rw [hb] at hv; cases hv.2
      case dead =>
        obtain ⟨m, b, h⟩ := hv (by omega)
        exact ⟨[], m, b, by rw [hb] at h; simpa using h⟩
      case put e' =>
        obtain ⟨m, h, _⟩ := hv
        exact ⟨[e'], m, _, by rw [hb] at h; exact h⟩
      all_goals
        obtain ⟨m, h, _⟩ := hv
        exact ⟨[], m, _, by rw [hb] at h; simpa using h⟩
    refine ⟨?_, ?_, ?_⟩
    · intro a c id he s' g1 g2 g3
      unfold PPValid
      rw [g2, g3, hreq, g1]
      simp only [List.getLast?_nil]
      subst he
      cases hp : w.pc <;> simp only [PPWorkerAt, hp, ppAfter_of_none hmb, ppAfter_of_none hme, ppTaken] at hv c2 ⊢
      case mark => omega
      case apply => rw [hb] at hv; cases hv.2
      case dead =>
        intro hl
        obtain ⟨m, b, h⟩ := hv hl
        rw [hb] at h
        cases h with
        | elem _ _ h => exact ⟨m, b, h⟩
      case put e' =>
        obtain ⟨m, h, hat⟩ := hv
        rw [hb] at h
        cases h with
        | elem _ _ h => exact ⟨m, h, hat⟩
      all_goals
        obtain ⟨m, h, hat⟩ := hv
        rw [hb] at h
        cases h with
        | elem _ _ h => exact ⟨m, h, hat⟩
    · intro a c id he
      subst he
      obtain ⟨k, m, b, h⟩ := key
      cases h with
      | elem h1 h2 _ => exact ⟨h1, h2⟩
    · intro r he
      subst he
      obtain ⟨k, m, b, h⟩ := key
      rw [List.cons_append] at h
      generalize es ++ k = l at h
      cases h with
      | err hr => exact ⟨rfl, hr⟩

private theorem next_raise {v : PView} {r : Res α} (ho : v.over = false) (hc : v.closed = false) (hr : r = streamRes x v.pos)
    (hni : ∀ a, r ≠ .item a) : viewStep x idx v .next = some ({ v with over := true }, [.inl r]) := by
  subst hr
  simp only [viewStep, ho, hc]
  unfold streamRes at hni ⊢
  cases hx : x v.pos with
  | none => simp
  | some q =>
    rw [hx] at hni
    cases q with
    | ok a => exact absurd rfl (hni a)
    | error e => simp [toRes]

private theorem ok_stop {stop : Bool} {w : PPWorker p} (h : PPWorkerOk At Ck idx stop w) : PPWorkerOk At Ck idx true w :=
  ⟨h.it, h.mark, fun _ => rfl, h.noFail, h.noMarker⟩

private theorem clear_count {s : PPSys p} {l j : Nat} (h : PPCount s l 0) (hj : j ≤ s.reqs.length) {pc' : PPMain α (PPReq p.C)} {st' : Option p.C} {ni' : Option Int} :
    PPCount { s with state := st', nextIndex := ni', reqs := s.reqs.drop j, reqCount := s.reqCount - j, setCount := s.setCount - j, pc := pc' } l 0 := by
  obtain ⟨h1, h2⟩ := h
  refine ⟨?_, ?_⟩
  · simp only [List.length_drop]; omega
  · show s.setCount - j = ppMarkers s.buf + ppTaken l s.worker + (s.reqCount - j)
    omega

private theorem cont_pc {s : PPSys p} {v : PView} {l : Nat} {k : PPCont α} (pc' : PPMain α (PPReq p.C)) (h : PPContOk x Ck idx crashes s v l k) :
    PPContOk x Ck idx crashes { s with pc := pc' } v l k := by
  cases k <;> exact h

private theorem cont_pop {s : PPSys p} {v : PView} {l : Nat} {k : PPCont α} {e : PPEntry α (PPSnap p)} {es : List (PPEntry α (PPSnap p))}
    (hb : s.buf = e :: es) (s' : PPSys p) (e1 : s'.buf = es) (e2 : s'.over = s.over) (e3 : s'.closed = s.closed) (e4 : s'.state = s.state) (e4' : s'.nextIndex = s.nextIndex)
    (e5 : s'.prog = s.prog) (e6 : s'.reqs = s.reqs) (e7 : s'.reqCount = s.reqCount) (e8 : s'.setCount = s.setCount) (e9 : s'.worker = s.worker)
    (h : PPContOk x Ck idx crashes s v l k) : PPContOk x Ck idx crashes s' v l k := by
  cases k with
  | close =>
    obtain ⟨a1, a2, a3, a4, a5⟩ := h
    exact ⟨e2.trans a1, e3.trans a2, a3.of_eq e4 e4', e5 ▸ a4, by rw [e9, e6, e7]; exact a5⟩
  | raise r =>
    obtain ⟨a1, a2, a3, a4, a5, a6, a7, a8, a9⟩ := h
    refine ⟨e2.trans a1, e3.trans a2, a3, a4, a5.of_eq e4 e4', e5 ▸ a6, ⟨by rw [e6, e7]; exact a7.1, ?_⟩, e8.trans a8, a9⟩
    have := a7.2
    rw [hb, ppMarkers_cons] at this
    rw [e1, e8, e7, e9]
    omega

private theorem good_raise {s : PPSys p} {v : PView} {l : Nat} {done : List TOp} {r : Res α} {op : TOp} {ops : List TOp}
    (hk : PPContOk x Ck idx crashes s v l (.raise r))
    (h : (∀ w, s.worker = some w → PPWorkerOk At Ck idx s.stop w) ∧ (∀ c ∈ s.reqs, ∃ m, PPReqAt idx Ck c m) ∧
      s.saved.length = v.saved.length ∧ (∀ (i : Nat) c q, s.saved[i]? = some c → v.saved[i]? = some q → Ck c q) ∧
      prog = done ++ s.prog ∧ ViewRun x idx crashes .start done s.outs v ∧ (crashes = false → l = 0 ∧ ∀ w, s.worker = some w → w.pc ≠ .dead)) (hprog : s.prog = op :: ops) :
    PPGood x At Ck idx crashes prog
      { s with worker := none, setCount := 0, over := true, pc := .idle, prog := ops, outs := s.outs ++ [.inl r] } := by
  obtain ⟨h2, h3, h4, h5, h6, h7, h8⟩ := h
  obtain ⟨a1, a2, a3, a4, a5, ⟨ops', a6⟩, a7, a8, a9⟩ := hk
  rw [hprog] at h6 a6
  cases a6
  refine ⟨{ v with over := true }, l, done ++ [.next], ⟨rfl, a2.trans a4.symm, a5, fun h => absurd rfl h, fun _ => ⟨⟨a7.1, ?_⟩, by intro hh; cases hh⟩⟩,
    (by intro w hw; cases hw), h3, h4, h5, by simp [h6], ?_, fun hc => ⟨(h8 hc).1, (by intro w hw; cases hw)⟩⟩
  · have := a7.2
    show 0 = ppMarkers s.buf + 0 + s.reqCount
    omega
  · rcases a9 with ⟨r1, r2⟩ | ⟨hcr, rfl⟩
    · exact .call h7 (next_raise a3 a4 r1 r2)
    · exact .crash hcr h7 a3 a4

private theorem good_closed {s : PPSys p} {v : PView} {l : Nat} {done : List TOp} {op : TOp} {ops : List TOp}
    (hk : PPContOk x Ck idx crashes s v l .close)
    (h : (∀ w, s.worker = some w → PPWorkerOk At Ck idx s.stop w) ∧ (∀ c ∈ s.reqs, ∃ m, PPReqAt idx Ck c m) ∧
      s.saved.length = v.saved.length ∧ (∀ (i : Nat) c q, s.saved[i]? = some c → v.saved[i]? = some q → Ck c q) ∧
      prog = done ++ s.prog ∧ ViewRun x idx crashes .start done s.outs v ∧ (crashes = false → l = 0 ∧ ∀ w, s.worker = some w → w.pc ≠ .dead)) (hprog : s.prog = op :: ops) :
    PPGood x At Ck idx crashes prog { s with worker := none, setCount := 0, pc := .idle, prog := ops } := by
  obtain ⟨h2, h3, h4, h5, h6, h7, h8⟩ := h
  obtain ⟨a1, a2, a3, ⟨ops', a6⟩, _⟩ := hk
  rw [hprog] at h6 a6
  cases a6
  refine ⟨{ v with closed := true }, l, done ++ [.close], ⟨a1, a2, a3, fun h => absurd rfl h, ?_⟩,
    (by intro w hw; cases hw), h3, h4, h5, by simp [h6], ?_, fun hc => ⟨(h8 hc).1, (by intro w hw; cases hw)⟩⟩
  · intro hh
    have hh : s.closed = false := hh
    rw [a2] at hh; cases hh
  · have := ViewRun.call h7 (op := .close) rfl
    simpa using this

private theorem good_save {s s' : PPSys p} {v : PView} {l : Nat} {done : List TOp} {ops : List TOp} {c : p.C} (hpc : s.pc = .idle)
    (h1 : PPMainOk x At Ck idx crashes s v l .idle)
    (h : (∀ w, s.worker = some w → PPWorkerOk At Ck idx s.stop w) ∧ (∀ c ∈ s.reqs, ∃ m, PPReqAt idx Ck c m) ∧
      s.saved.length = v.saved.length ∧ (∀ (i : Nat) c q, s.saved[i]? = some c → v.saved[i]? = some q → Ck c q) ∧
      prog = done ++ s.prog ∧ ViewRun x idx crashes .start done s.outs v ∧ (crashes = false → l = 0 ∧ ∀ w, s.worker = some w → w.pc ≠ .dead))
    (hprog : s.prog = .save :: ops) (hc : Ck c v.last) (hst : PPStOk idx Ck s' v.last) (e1 : s'.over = s.over) (e2 : s'.closed = s.closed)
    (e3 : s'.setCount = s.setCount) (e4 : s'.buf = s.buf) (e5 : s'.reqs = s.reqs) (e6 : s'.reqCount = s.reqCount) (e7 : s'.stop = s.stop)
    (e8 : s'.worker = s.worker) (e9 : s'.pc = s.pc) (e10 : s'.prog = ops) (e11 : (s'.saved, s'.outs) = (s.saved ++ [c], s.outs)) :
    PPGood x At Ck idx crashes prog s' := by
  obtain ⟨h2, h3, h4, h5, h6, h7, h8⟩ := h
  obtain ⟨a1, a2, a3, a4, a5⟩ := h1
  obtain ⟨k1, k2⟩ := saved_snoc h4 h5 hc
  simp only [Prod.mk.injEq] at e11
  obtain ⟨e11, e12⟩ := e11
  rw [hprog] at h6
  refine ⟨{ v with saved := v.saved ++ [v.last] }, l, done ++ [.save], ?_, by rw [e8, e7]; exact h2, by rw [e5]; exact h3,
    by rw [e11]; exact k1, by rw [e11]; exact k2, by rw [e10]; simp [h6], ?_, by rw [e8]; exact h8⟩
  · rw [e9, hpc]
    refine ⟨e1.trans a1, e2.trans a2, hst, by rw [e8, e7, e2]; exact a4, ?_⟩
    intro hcl
    rw [e2] at hcl
    obtain ⟨b1, b2⟩ := a5 hcl
    refine ⟨⟨by rw [e5, e6]; exact b1.1, by rw [e3, e4, e8, e6]; exact b1.2⟩, ?_⟩
    intro ho
    rw [e1] at ho
    have := b2 ho
    unfold PPValid at this ⊢
    rw [e5, e8, e4]
    exact this
  · rw [e12]
    have := ViewRun.call h7 (op := .save) rfl
    simpa using this

theorem ppGood_step (sim : SimStream p x At Ck) (hidx : IdxStream p x idx At) (hcalls : callsOk x idx crashes prog) {s s' : PPSys p} (h : PPGood x At Ck idx crashes prog s)
    (hstep : PPStep p size keep crashes s s') : PPGood x At Ck idx crashes prog s' := by
  cases hstep with
  | @top_stop w hw hpc hst =>
    refine good_local h s.made hw (by simp [hpc]) (by simp) (by simp [ppTaken, hpc]) (by simp [hpc]) ?_ ?_
    · intro hk
      rw [hst]
      exact ok_leaving hk.it (Or.inl rfl)
    · intro l pos _ hs
      rw [hst] at hs; cases hs
  | @top_take w hw hpc hst hn =>
    refine good_local h s.made hw (by simp [hpc]) (by simp) (by simp [ppTaken, hpc]) (by simp [hpc]) (fun hk => ok_plain hk.it (by simp)) ?_
    intro l pos _ _ ha
    simpa only [PPItAt, PPWorkerAt, hpc] using ha
  | @top_work w hw hpc hst hn hexh =>
    refine good_local h s.made hw (by simp [hpc]) (by simp) (by simp [ppTaken, hpc]) (by simp [hpc]) (fun hk => ok_plain hk.it (by simp)) ?_
    intro l pos _ _ ha
    simpa only [PPItAt, PPWorkerAt, hpc] using ha
  | @take_none w hw hpc hn =>
    refine good_local h s.made hw (by simp [hpc]) (by simp) (by simp [ppTaken, hpc]) (by simp [hpc]) (fun hk => ok_plain hk.it (by simp)) ?_
    intro l pos _ _ ha
    simpa only [PPItAt, PPWorkerAt, hpc] using ha
  | @take w n c cs hw hpc hn hr =>
    refine good_worker h (buf' := s.buf) (made' := s.made) (freed' := s.freed) id hw (by simp [hpc]) ?_
      (by rw [hr, hn]; intro h; exact Or.inr (by simpa using h)) (by simp [hpc]) ?_ ?_ ?_ ?_ ?_
    · intro hk hck
      exact ok_mark hk.it (Or.inl rfl) (hck c (by rw [hr]; simp)) rfl
    · intro c' hc'
      rw [hr]; exact List.mem_cons_of_mem _ hc'
    · exact fun _ => ⟨rfl, by simp⟩
    · intro l d _ hc hz
      obtain ⟨c1, c2⟩ := hc
      refine ⟨?_, ?_⟩
      · rw [hr] at c1
        simp only [List.length_cons] at c1
        show cs.length = n + d
        omega
      · rw [hw] at c2
        simp only [ppTaken, hpc] at c2
        show s.setCount = ppMarkers s.buf + 1 + n
        omega
    · intro l pos _ _ hc hv
      unfold PPValid at hv ⊢
      rw [hr, hw] at hv
      dsimp only
      cases hl : cs.getLast? with
      | some c' =>
        have : (c :: cs).getLast? = some c' := by
          rw [List.getLast?_cons, hl]; rfl
        rw [this] at hv
        exact hv
      | none =>
        rw [getLast_none hl] at hv
        exact hv
    · intro l c' _ _ hc hl
      obtain ⟨c1, c2⟩ := hc
      rw [hr] at c1 hl
      simp only [List.length_cons] at c1
      cases cs with
      | nil => simp at c1; omega
      | cons y ys => simpa using hl
  | @mark w c hw hpc hroom =>
    refine good_worker h (reqs' := s.reqs) (n' := s.reqCount) (made' := s.made) (freed' := s.freed) id hw (by simp [hpc]) ?_ Or.inr (by simp [hpc]) (fun c hc => hc)
      (fun _ => ⟨rfl, by simp⟩) ?_ ?_ (fun l c _ _ _ h => h)
    · intro hk _
      exact ok_mark hk.it (Or.inr rfl) (hk.mark c (Or.inl hpc)).1 (hk.mark c (Or.inl hpc)).2
    · intro l d _ hc _
      obtain ⟨c1, c2⟩ := hc
      refine ⟨c1, ?_⟩
      rw [hw] at c2
      simp only [ppTaken, hpc] at c2
      show s.setCount = ppMarkers (s.buf ++ [.marker]) + 0 + s.reqCount
      rw [ppMarkers_append]
      simp [ppMarkers, ppIsMarker] at c2 ⊢
      omega
    · intro l pos _ _ _ hv
      unfold PPValid at hv ⊢
      rw [hw] at hv
      dsimp only
      cases hl : s.reqs.getLast? with
      | some c' => rw [hl] at hv; exact hv
      | none =>
        rw [hl] at hv
        simp only [PPWorkerAt, hpc] at hv ⊢
        exact ⟨hv, ppAfter_snoc_marker _⟩
  | @mark_stop w c hw hpc hst =>
    refine good_worker h (buf' := s.buf) (reqs' := s.reqs) (n' := s.reqCount) (made' := s.made) (freed' := s.freed) id hw (by simp [hpc]) ?_ Or.inr (by simp [hpc]) (fun c hc => hc)
      (fun _ => ⟨rfl, by simp⟩) ?_ ?_ ?_
    · intro hk _
      exact ok_plain hk.it (by simp)
    · intro l d _ hc hz
      obtain ⟨c1, c2⟩ := hc
      rw [hw, (hz hst).1] at c2
      simp only [ppTaken, hpc] at c2
      omega
    · intro l pos _ hs
      rw [hst] at hs; cases hs
    · intro l c _ hs
      rw [hst] at hs; cases hs
  | @apply w c it' hw hpc hset =>
    have key : PPWorkerOk At Ck idx s.stop w → ∀ q, Ck c q → At it' q := by
      intro hk q hq
      obtain ⟨m, hm, _⟩ := hk.it
      obtain ⟨s2, e1, e2⟩ := sim.set hm hq
      have := ev_unique e1 hset
      cases this
      exact e2
    refine good_local h s.made hw (by simp [hpc]) (by simp) (by simp [ppTaken, hpc]) (by simp [hpc]) ?_ ?_
    · intro hk
      obtain ⟨q, hq⟩ := (hk.mark _ (Or.inr hpc)).1
      exact ok_plain ⟨q, key hk q hq, by intro _ j h; cases h⟩ (by simp)
    · intro l pos hk _ ha
      simp only [PPWorkerAt, hpc] at ha ⊢
      rw [ha.2, (hk.mark _ (Or.inr hpc)).2]
      exact ⟨pos, .nil, key hk pos ha.1, by intro _ j h; cases h⟩
  | @apply_raise w c it' e hw hpc hset =>
    exfalso
    obtain ⟨v, l, done, h1, h2, _⟩ := h
    have hk := h2 w hw
    obtain ⟨m, hm, _⟩ := hk.it
    obtain ⟨q, hq⟩ := (hk.mark _ (Or.inr hpc)).1
    obtain ⟨s2, e1, e2⟩ := sim.set hm hq
    have := ev_unique e1 hset
    cases this
  | @apply_index w it' i hw hpc hset =>
    have key : PPWorkerOk At Ck idx s.stop w → idx i = true → At it' i := by
      intro hk hq
      obtain ⟨m, hm, _⟩ := hk.it
      obtain ⟨s2, e1, e2⟩ := hidx.setIdx hm hq
      rw [hset] at e1
      cases e1
      exact e2
    refine good_local h s.made hw (by simp [hpc]) (by simp) (by simp [ppTaken, hpc]) (by simp [hpc]) ?_ ?_
    · intro hk
      obtain ⟨q, _, hq⟩ := (hk.mark _ (Or.inr hpc)).1
      exact ok_plain ⟨i, key hk hq, by intro _ j h; cases h; rfl⟩ (by simp)
    · intro l pos hk _ ha
      simp only [PPWorkerAt, hpc] at ha ⊢
      rw [ha.2, (hk.mark _ (Or.inr hpc)).2]
      obtain ⟨rfl, hq⟩ := ha.1
      exact ⟨i, .nil, key hk hq, by intro _ j h; cases h; rfl⟩
  | @apply_index_raise w it' e i hw hpc hset =>
    exfalso
    obtain ⟨v, l, done, h1, h2, _⟩ := h
    have hk := h2 w hw
    obtain ⟨m, hm, _⟩ := hk.it
    obtain ⟨q, _, hq⟩ := (hk.mark _ (Or.inr hpc)).1
    obtain ⟨s2, e1, e2⟩ := hidx.setIdx hm hq
    rw [hset] at e1
    cases e1
  | @work_wait w hw hpc hexh =>
    refine good_local h s.made hw (by simp [hpc]) (by simp) (by simp [ppTaken, hpc]) (by simp [hpc]) (fun hk => ok_plain hk.it (by simp)) ?_
    intro l pos _ _ ha
    simpa only [PPItAt, PPWorkerAt, hpc] using ha
  | @work_item w it' a n hw hpc hexh hn =>
    have hni : ∀ m : Nat, (∀ j, w.nextIndex = some j → j = (m : Int)) → ∀ j, w.nextIndex.map (· + 1) = some j → j = ((m + 1 : Nat) : Int) := by
      intro m hm j hj
      obtain ⟨k, hk, rfl⟩ := Option.map_eq_some_iff.1 hj
      rw [hm k hk]
      rfl
    refine good_local h (s.made + n) hw (by simp [hpc]) (by simp) (by simp [ppTaken, hpc]) (by simp [hpc]) ?_ ?_
    · intro hk
      obtain ⟨m, hm, hi⟩ := hk.it
      obtain ⟨q1, q2⟩ := worker_next sim hm hn
      obtain ⟨r1, r2⟩ := streamRes_item q1.symm
      rw [r2] at q2
      exact ok_put ⟨m + 1, (sim.get q2).1, fun hx => hni m (hi hx)⟩ rfl rfl
    · intro l pos hk _ ha
      simp only [PPWorkerAt, hpc, hexh] at ha ⊢
      obtain ⟨m, hb, hm, hi⟩ := ha
      obtain ⟨q1, q2⟩ := worker_next sim hm hn
      obtain ⟨r1, r2⟩ := streamRes_item q1.symm
      rw [r2] at q2
      obtain ⟨g1, g2⟩ := sim.get q2
      exact ⟨m + 1, hb.snoc_elem rfl r1 ⟨g2, fun hx => hni m (hi hx)⟩, g1, fun hx => hni m (hi hx)⟩
  | @work_err w it' r hw hpc hexh hr hn =>
    refine good_local h s.made hw (by simp [hpc]) (by simp) (by simp [ppTaken, hpc]) (by simp [hpc]) ?_ ?_
    · intro hk
      obtain ⟨m, hm, hi⟩ := hk.it
      obtain ⟨q1, q2⟩ := worker_next sim hm hn
      subst q1
      exact ok_put ⟨_, q2, fun hx j hj => by rw [streamPos_of_not_item hidx hx hr]; exact hi hx j hj⟩ rfl rfl
    · intro l pos hk _ ha
      simp only [PPWorkerAt, hpc, hexh] at ha ⊢
      obtain ⟨m, hb, hm, hi⟩ := ha
      obtain ⟨q1, q2⟩ := worker_next sim hm hn
      subst q1
      exact ⟨_, hb.snoc_err rfl hr, q2, fun hx j hj => by rw [streamPos_of_not_item hidx hx hr]; exact hi hx j hj⟩
  | @put w e hw hpc hroom =>
    refine good_worker h (reqs' := s.reqs) (n' := s.reqCount) (made' := s.made) (freed' := s.freed) id hw (by simp [hpc]) ?_ Or.inr (by simp [hpc]) (fun c hc => hc)
      (fun _ => ⟨rfl, by simp⟩) ?_ ?_ (fun l c _ _ _ h => h)
    · intro hk _
      exact ok_plain hk.it (by simp)
    · intro l d hk hc _
      obtain ⟨c1, c2⟩ := hc
      refine ⟨c1, ?_⟩
      rw [hw] at c2
      simp only [ppTaken, hpc] at c2
      show s.setCount = ppMarkers (s.buf ++ [e]) + 0 + s.reqCount
      rw [ppMarkers_append]
      have := hk.noMarker e hpc
      simp [ppMarkers, this] at c2 ⊢
      omega
    · intro l pos hk _ _ hv
      unfold PPValid at hv ⊢
      rw [hw] at hv
      dsimp only
      cases hl : s.reqs.getLast? with
      | some c' => rw [hl] at hv; exact hv
      | none =>
        rw [hl] at hv
        simp only [PPWorkerAt, hpc] at hv ⊢
        rw [ppAfter_snoc _ (hk.noMarker e hpc)]
        exact hv
  | @put_stop w e hw hpc hst =>
    refine good_worker h (buf' := s.buf) (reqs' := s.reqs) (n' := s.reqCount) (made' := s.made) id hw (by simp [hpc]) ?_ Or.inr (by simp [hpc]) (fun c hc => hc)
      (fun _ => ⟨rfl, by simp⟩) ?_ ?_ ?_
    · intro hk _
      exact ok_plain hk.it (by simp)
    · intro l d _ hc hz
      obtain ⟨c1, c2⟩ := hc
      refine ⟨c1, ?_⟩
      rw [hw] at c2
      simpa only [ppTaken, hpc] using c2
    · intro l pos _ hs
      rw [hst] at hs; cases hs
    · intro l c _ hs
      rw [hst] at hs; cases hs
  | @leave w e es hw hpc hb =>
    have := good_worker h (w' := w) (buf' := es) (reqs' := s.reqs) (n' := s.reqCount) (made' := s.made) (freed' := s.freed ++ ppIds e) id hw (by simp [hpc]) 
      (fun h _ => h) Or.inr (fun h => Or.inl h) (fun c hc => hc) (fun _ => ⟨rfl, by simp [hpc]⟩) (by
        intro l d hk hc hz
        obtain ⟨c1, c2⟩ := hc
        refine ⟨c1, ?_⟩
        have hz := (hz (hk.leaving (Or.inl hpc))).1
        rw [hw, hb, ppMarkers_cons, hz] at c2
        simp only [ppTaken, hpc] at c2
        show s.setCount = ppMarkers es + ppTaken l (some w) + s.reqCount
        simp only [ppTaken, hpc]
        omega) (by
        intro l pos hk hs
        rw [hk.leaving (Or.inl hpc)] at hs; cases hs) (by
        intro l pos hk hs
        rw [hk.leaving (Or.inl hpc)] at hs; cases hs)
    rw [← hw] at this
    exact this
  | @leave_end w hw hpc =>
    refine good_worker h (buf' := s.buf) (n' := s.reqCount) (made' := s.made) (freed' := s.freed) id hw (by simp [hpc]) ?_ (fun _ => Or.inl (Or.inr (Or.inl rfl)))
      (fun _ => Or.inr (Or.inl rfl)) (by simp)
      (fun _ => ⟨rfl, by simp⟩) ?_ ?_ ?_
    · intro hk _
      rw [hk.leaving (Or.inl hpc)]
      exact ok_leaving hk.it (Or.inr rfl)
    · intro l d hk hc hz
      obtain ⟨c1, c2⟩ := hc
      have hz := hz (hk.leaving (Or.inl hpc))
      rw [hw] at c2
      simp only [ppTaken, hpc] at c2
      refine ⟨?_, ?_⟩
      · show 0 = s.reqCount + d
        omega
      · exact c2
    · intro l pos hk hs
      rw [hk.leaving (Or.inl hpc)] at hs; cases hs
    · intro l pos hk hs
      rw [hk.leaving (Or.inl hpc)] at hs; cases hs
  | @fail_clear w e e' es hw hpc hb =>
    obtain ⟨v, l, done, h1, h2, _⟩ := h
    exact absurd hpc ((h2 w hw).noFail e).1
  | @fail_end w e hw hpc =>
    obtain ⟨v, l, done, h1, h2, _⟩ := h
    exact absurd hpc ((h2 w hw).noFail e).1
  | @fail_put w e hw hpc =>
    obtain ⟨v, l, done, h1, h2, _⟩ := h
    exact absurd hpc ((h2 w hw).noFail e).2
  | @fail_stop w e hw hpc =>
    obtain ⟨v, l, done, h1, h2, _⟩ := h
    exact absurd hpc ((h2 w hw).noFail e).2
  | @crash w hw h1 h2 hc =>
    refine good_worker h (buf' := s.buf) (reqs' := s.reqs) (n' := s.reqCount) (made' := s.made) (freed' := s.freed) 
      (fun _ => ppTaken 0 (some w)) hw ⟨h1, h2⟩ (fun hk _ => ok_plain hk.it (by simp)) Or.inr (fun _ => Or.inr (Or.inr rfl)) (fun c hc => hc)
      (by rw [hc]; intro hh; cases hh) ?_ ?_ (fun l c _ _ _ h => h)
    · intro l d _ hc _
      refine ⟨hc.1, ?_⟩
      have := hc.2
      rw [hw] at this
      show s.setCount = ppMarkers s.buf + ppTaken 0 (some w) + s.reqCount
      rw [this]
      congr 2
      cases hp : w.pc <;> simp [ppTaken, hp] at h2 ⊢
    · intro l pos hk hs hcnt hv
      unfold PPValid at hv ⊢
      rw [hw] at hv
      dsimp only
      cases hl : s.reqs.getLast? with
      | some c' => rw [hl] at hv; exact hv
      | none =>
        rw [hl] at hv
        simp only [PPWorkerAt] at hv ⊢
        intro hz
        cases hp : w.pc with
        | mark c => simp [ppTaken, hp] at hz
        | dead => exact absurd hp h2
        | apply c =>
          rw [hp] at hv
          rw [hv.2]
          exact ⟨_, _, .nil⟩
        | put e =>
          rw [hp] at hv
          obtain ⟨m, hb, _⟩ := hv
          exact hb.dropLast rfl
        | _ =>
          rw [hp] at hv
          obtain ⟨m, hb, _⟩ := hv
          exact ⟨_, _, hb⟩
  | @next_over ops hpc hprog ho =>
    obtain ⟨v, l, done, h1, h2, h3, h4, h5, h6, h7, h8⟩ := h
    rw [hprog] at h6
    rw [hpc] at h1
    refine ⟨v, l, done ++ [.next], ?_, h2, h3, h4, h5, by simp [h6], .call h7 ?_, h8⟩
    · show PPMainOk x At Ck idx crashes _ v l s.pc
      rw [hpc]; exact h1
    · simp [viewStep, ← h1.1, ho]
  | @next_closed ops hpc hprog ho hcl =>
    obtain ⟨v, l, done, h1, h2, h3, h4, h5, h6, h7, h8⟩ := h
    rw [hprog] at h6
    rw [hpc] at h1
    refine ⟨v, l, done ++ [.next], ?_, h2, h3, h4, h5, by simp [h6], .call h7 ?_, h8⟩
    · show PPMainOk x At Ck idx crashes _ v l s.pc
      rw [hpc]; exact h1
    · simp [viewStep, ← h1.1, ← h1.2.1, ho, hcl]
  | @next_start ops hpc hprog ho hcl hw =>
    obtain ⟨v, l, done, h1, h2, h3, h4, h5, h6, h7, h8⟩ := h
    rw [hpc] at h1
    obtain ⟨a1, a2, a3, a4, a5⟩ := h1
    obtain ⟨b1, b2⟩ := a5 hcl
    refine ⟨v, l, done, ⟨ho, hcl, a1 ▸ ho, a2 ▸ hcl, a3, ⟨ops, hprog⟩, by simp, rfl, start_count hw b1, start_valid sim hw b1 (b2 ho)⟩, ?_, h3, h4, h5, h6, h7, ?_⟩
    · intro w' hw'
      cases hw'
      exact ok_plain ⟨0, sim.init, by intro _ j h; cases h; rfl⟩ (by simp [ppWorker0])
    · intro hc
      exact ⟨(h8 hc).1, by intro w' hw'; cases hw'; simp [ppWorker0]⟩
  | @next_wait ops w hpc hprog ho hcl hw =>
    obtain ⟨v, l, done, h1, h2, h3, h4, h5, h6, h7, h8⟩ := h
    rw [hpc] at h1
    obtain ⟨a1, a2, a3, a4, a5⟩ := h1
    obtain ⟨b1, b2⟩ := a5 hcl
    have hne : s.worker ≠ none := by rw [hw]; simp
    exact ⟨v, l, done, ⟨ho, hcl, a1 ▸ ho, a2 ▸ hcl, a3, ⟨ops, hprog⟩, hne, (a4 hne).1, b1, b2 ho⟩, h2, h3, h4, h5, h6, h7, h8⟩
  | @get_marker es hpc hb =>
    obtain ⟨v, l, done, h1, h2, h3, h4, h5, h6, h7, h8⟩ := h
    rw [hpc] at h1
    obtain ⟨a1, a2, a3, a4, a5, a6, a7, a8, a9, a10⟩ := h1
    refine ⟨v, l, done, ?_, h2, h3, h4, h5, h6, h7, h8⟩
    show PPMainOk x At Ck idx crashes _ v l s.pc
    rw [hpc]
    refine ⟨a1, a2, a3, a4, a5, a6, a7, a8, ⟨a9.1, ?_⟩, ?_⟩
    · have := a9.2
      rw [hb, ppMarkers_cons] at this
      simp only [ppIsMarker, if_true] at this
      show s.setCount - 1 = ppMarkers es + ppTaken l s.worker + s.reqCount
      omega
    · refine pop_valid (n' := s.setCount - 1) (freed' := s.freed) a10 hb a7 ?_
      intro w _
      simp only [PPWorkerAt, ppAfter_marker]
      exact fun h => h
  | @get_stale e es hpc hb hm hsc =>
    obtain ⟨v, l, done, h1, h2, h3, h4, h5, h6, h7, h8⟩ := h
    rw [hpc] at h1
    obtain ⟨a1, a2, a3, a4, a5, a6, a7, a8, a9, a10⟩ := h1
    refine ⟨v, l, done, ?_, h2, h3, h4, h5, h6, h7, h8⟩
    show PPMainOk x At Ck idx crashes _ v l s.pc
    rw [hpc]
    have hcnt : s.setCount = ppMarkers es + ppTaken l s.worker + s.reqCount := by
      have := a9.2
      rw [hb, ppMarkers_cons, hm] at this
      simpa using this
    refine ⟨a1, a2, a3, a4, a5, a6, a7, a8, ⟨a9.1, hcnt⟩, ?_⟩
    by_cases hes : ppMarkers es = 0
    · have hreq := a9.1
      unfold PPValid at a10 ⊢
      dsimp only
      cases hl : s.reqs.getLast? with
      | some c => rw [hl] at a10; exact a10
      | none =>
        rw [getLast_none hl] at hreq
        simp only [List.length_nil] at hreq
        cases hw : s.worker with
        | none => exact absurd hw a7
        | some w =>
          rw [hl, hw] at a10
          rw [hw] at hcnt
          cases hp : w.pc <;> simp only [ppTaken, hp, PPWorkerAt] at hcnt a10 ⊢ <;> first | exact a10 | omega
    · refine pop_valid (n' := s.setCount) (freed' := s.freed ++ ppIds e) a10 hb a7 ?_
      intro w _
      simp only [PPWorkerAt, ppAfter_cons hes]
      exact fun h => h
  | @get_elem ops a c id es hpc hprog hb hsc =>
    obtain ⟨v, l, done, h1, h2, h3, h4, h5, h6, h7, h8⟩ := h
    rw [hprog] at h6
    rw [hpc] at h1
    obtain ⟨a1, a2, a3, a4, a5, a6, a7, a8, a9, a10⟩ := h1
    obtain ⟨e1, e2, e3⟩ := get_front a9 a10 a7 hb hsc rfl
    obtain ⟨f1, f2⟩ := e2 a c id rfl
    refine ⟨{ v with pos := v.pos + 1, last := v.pos + 1 }, l, done ++ [.next],
      ⟨a1.trans a3.symm, a2.trans a4.symm, .snap f2 rfl rfl, fun _ => ⟨a8, a2⟩, fun _ => ⟨⟨a9.1, ?_⟩, fun _ => e1 a c id rfl _ rfl rfl rfl⟩⟩,
      h2, h3, h4, h5, by simp [h6], .call h7 ?_, h8⟩
    · have := a9.2
      rw [hb, ppMarkers_cons] at this
      simpa [ppIsMarker] using this
    · simp [viewStep, a3, a4, f1]
  | @get_end ops es hpc hprog hb hsc hk =>
    obtain ⟨v, l, done, h1, h2, h3, h4, h5, h6, h7, h8⟩ := h
    rw [hprog] at h6
    rw [hpc] at h1
    obtain ⟨a1, a2, a3, a4, a5, a6, a7, a8, a9, a10⟩ := h1
    obtain ⟨e1, e2, e3⟩ := get_front a9 a10 a7 hb hsc rfl
    obtain ⟨f1, f2⟩ := e3 .stop rfl
    refine ⟨{ v with over := true }, l, done ++ [.next],
      ⟨rfl, a2.trans a4.symm, a5, fun _ => ⟨a8, a2⟩, fun _ => ⟨⟨a9.1, ?_⟩, by intro hh; cases hh⟩⟩,
      h2, h3, h4, h5, by simp [h6], .call h7 ?_, h8⟩
    · have := a9.2
      rw [hb, ppMarkers_cons] at this
      simpa [ppIsMarker] using this
    · exact next_raise a3 a4 f1 f2
  | @get_err r es hpc hb hsc hk =>
    obtain ⟨v, l, done, h1, h2, h3, h4, h5, h6, h7, h8⟩ := h
    rw [hpc] at h1
    obtain ⟨a1, a2, a3, a4, a5, a6, a7, a8, a9, a10⟩ := h1
    obtain ⟨e1, e2, e3⟩ := get_front a9 a10 a7 hb hsc rfl
    refine ⟨v, l, done, ⟨a7, rfl, a1, a2, a3, a4, a5, a6, ⟨a9.1, ?_⟩, hsc, Or.inl (e3 r rfl)⟩, ?_, h3, h4, h5, h6, h7, h8⟩
    · have := a9.2
      rw [hb, ppMarkers_cons] at this
      simpa [ppIsMarker] using this
    · exact fun w hw => ok_stop (h2 w hw)
  | @get_dead w hpc hb hw hd hsc =>
    obtain ⟨v, l, done, h1, h2, h3, h4, h5, h6, h7, h8⟩ := h
    rw [hpc] at h1
    obtain ⟨a1, a2, a3, a4, a5, a6, a7, a8, a9, a10⟩ := h1
    have hcr : crashes = true := by
      cases hc : crashes with
      | true => rfl
      | false => exact absurd hd ((h8 hc).2 w hw)
    exact ⟨v, l, done, ⟨a7, rfl, a1, a2, a3, a4, a5, a6, a9, hsc, Or.inr ⟨hcr, rfl⟩⟩, fun w hw => ok_stop (h2 w hw), h3, h4, h5, h6, h7, h8⟩
  | @save ops c hpc hprog hst =>
    obtain ⟨v, l, done, h1, h⟩ := h
    rw [hpc] at h1
    have := good_save (s' := { s with prog := ops, saved := s.saved ++ [c] }) hpc h1 h hprog (h1.2.2.1.1 c hst) h1.2.2.1 rfl rfl rfl rfl rfl rfl rfl rfl rfl rfl rfl
    exact this
  | @save_zero ops hpc hprog hst hni =>
    obtain ⟨v, l, done, h1, h⟩ := h
    rw [hpc] at h1
    have hl : v.last = 0 := by
      obtain ⟨j, e1, e2, _⟩ := h1.2.2.1.2.1 hst
      rw [hni] at e1
      cases e1
      omega
    have hg : Ck (p.get p.init).2 v.last := by rw [hl]; exact (sim.get sim.init).2
    exact good_save hpc h1 h hprog hg (.known hg rfl (fun hx => h1.2.2.1.2.2 hx)) rfl rfl rfl rfl rfl rfl rfl rfl rfl rfl rfl
  | @save_index ops it' i hpc hprog hst hni hi hset =>
    obtain ⟨v, l, done, h1, h⟩ := h
    rw [hpc] at h1
    have hg : Ck (p.get it').2 v.last := by
      obtain ⟨j, e1, e2, e3⟩ := h1.2.2.1.2.1 hst
      rw [hni] at e1
      cases e1
      rcases e3 with e3 | e3
      · obtain ⟨s2, f1, f2⟩ := hidx.setIdx sim.init e3
        rw [e2, f1] at hset
        cases hset
        exact (sim.get f2).2
      · rw [e3] at e2
        exact absurd e2 hi
    exact good_save hpc h1 h hprog hg (.known hg rfl (fun hx => h1.2.2.1.2.2 hx)) rfl rfl rfl rfl rfl rfl rfl rfl rfl rfl rfl
  | @index_known ops i hpc hprog hni =>
    obtain ⟨v, l, done, h1, h2, h3, h4, h5, h6, h7, h8⟩ := h
    rw [hprog] at h6
    rw [hpc] at h1
    obtain ⟨r, hr⟩ := hcalls done .index ops s.outs v h6 h7
    have hr' := hr
    simp only [viewStep] at hr
    split at hr
    · rename_i hi
      have hil : i = v.last := h1.2.2.1.2.2 ⟨_, hi⟩ i hni
      refine ⟨v, l, done ++ [.index], ?_, h2, h3, h4, h5, by simp [h6], .call h7 ?_, h8⟩
      · show PPMainOk x At Ck idx crashes _ v l s.pc
        rw [hpc]; exact h1
      · simp [viewStep, hi, hil]
    · cases hr
  | @index ops c it' i hpc hprog hni hst hset hget =>
    obtain ⟨v, l, done, h1, h2, h3, h4, h5, h6, h7, h8⟩ := h
    rw [hprog] at h6
    rw [hpc] at h1
    obtain ⟨r, hr⟩ := hcalls done .index ops s.outs v h6 h7
    simp only [viewStep] at hr
    split at hr
    · rename_i hi
      have hil : i = v.last := by
        obtain ⟨s2, f1, f2⟩ := sim.set sim.init (h1.2.2.1.1 c hst)
        have := ev_unique f1 hset
        cases this
        have := hidx.getIdx f2 hi
        rw [hget] at this
        cases this
        rfl
      refine ⟨v, l, done ++ [.index], ?_, h2, h3, h4, h5, by simp [h6], .call h7 ?_, h8⟩
      · show PPMainOk x At Ck idx crashes _ v l s.pc
        rw [hpc]
        obtain ⟨a1, a2, a3, a4, a5⟩ := h1
        exact ⟨a1, a2, .known (a3.1 c hst) hst (fun _ j hj => by cases hj; exact hil), a4, a5⟩
      · simp [viewStep, hi, hil]
    · cases hr
  | @jump_clear ops j i hpc hprog hj =>
    obtain ⟨v, l, done, h1, h2, h3, h4, h5, h6, h7, h8⟩ := h
    rw [hpc] at h1
    obtain ⟨a1, a2, a3, a4, a5⟩ := h1
    obtain ⟨r, hr⟩ := hcalls done (.setIndex i) ops s.outs v (h6.trans (by rw [hprog])) h7
    simp only [viewStep] at hr
    split at hr
    · rename_i hi
      refine ⟨v, l, done, ⟨⟨.setIndex i, ops, i, hprog, ⟨rfl, hi⟩, ?_⟩, ⟨rfl, rfl⟩, a4, fun hcl => clear_count (a5 hcl).1 hj⟩, h2,
        fun c hc => h3 c (List.mem_of_mem_drop hc), h4, h5, h6, h7, h8⟩
      simp only [viewStep, hi, if_true, a2]
    · cases hr
  | @set_clear ops k c j hpc hprog hk hj =>
    obtain ⟨v, l, done, h1, h2, h3, h4, h5, h6, h7, h8⟩ := h
    rw [hpc] at h1
    obtain ⟨a1, a2, a3, a4, a5⟩ := h1
    have hklt : k < v.saved.length := by rw [← h4]; exact (List.getElem?_eq_some_iff.1 hk).1
    have hq : v.saved[k]? = some v.saved[k] := List.getElem?_eq_getElem _
    refine ⟨v, l, done, ⟨⟨.restore k, ops, v.saved[k], hprog, h5 k c _ hk hq, ?_⟩, ⟨rfl, rfl⟩, a4, fun hcl => clear_count (a5 hcl).1 hj⟩, h2,
      fun c hc => h3 c (List.mem_of_mem_drop hc), h4, h5, h6, h7, h8⟩
    simp only [viewStep, hq, Option.map_some, a2]
  | @set_put c hpc =>
    obtain ⟨v, l, done, h1, h2, h3, h4, h5, h6, h7, h8⟩ := h
    rw [hpc] at h1
    obtain ⟨⟨op, ops, q, b1, b2, b3⟩, a2, a3, a4⟩ := h1
    refine ⟨v, l, done, ⟨⟨op, ops, q, b1, b2, b3⟩, a2, a3, fun hcl => ⟨⟨?_, (a4 hcl).2⟩, by simp⟩⟩, h2, ?_, h4, h5, h6, h7, h8⟩
    · have := (a4 hcl).1
      simp [this]
    · intro c' hc'
      rcases List.mem_append.1 hc' with h | h
      · exact h3 c' h
      · cases List.mem_singleton.1 h
        exact ⟨q, b2⟩
  | @set_done c op ops hpc hprog =>
    obtain ⟨v, l, done, h1, h2, h3, h4, h5, h6, h7, h8⟩ := h
    rw [hprog] at h6
    rw [hpc] at h1
    obtain ⟨⟨op', ops', q, b1, b2, b3⟩, a2, a3, a4⟩ := h1
    rw [hprog] at b1
    cases b1
    refine ⟨{ pos := q, last := q, over := false, closed := s.closed, saved := v.saved }, l, done ++ [op], ⟨rfl, rfl, .asked b2 a2, a3, fun hcl => ⟨?_, fun _ => ?_⟩⟩, h2, h3, h4, h5, by simp [h6],
      by simpa using ViewRun.call h7 b3, h8⟩
    · obtain ⟨⟨c1, c2⟩, _⟩ := a4 hcl
      refine ⟨?_, ?_⟩
      · show s.reqs.length = s.reqCount + 1 + 0
        omega
      · show s.setCount + 1 = ppMarkers s.buf + ppTaken l s.worker + (s.reqCount + 1)
        omega
    · unfold PPValid
      dsimp only
      rw [(a4 hcl).2]
      exact b2
  | @fresh ops k c hpc hprog hk =>
    obtain ⟨v, l, done, h1, h2, h3, h4, h5, h6, h7, h8⟩ := h
    have hklt : k < v.saved.length := by rw [← h4]; exact (List.getElem?_eq_some_iff.1 hk).1
    have hq : v.saved[k]? = some v.saved[k] := List.getElem?_eq_getElem _
    refine ⟨v, 0, done, ⟨⟨.fresh k, ops, v.saved[k], rfl, h5 k c _ hk hq, ?_⟩, ⟨rfl, rfl⟩, by intro h; exact absurd rfl h, fun _ => ⟨rfl, rfl⟩⟩,
      (by intro w hw; cases hw), (by intro c hc; cases hc), h4, h5, (by rw [h6, hprog]; rfl), h7, fun _ => ⟨rfl, (by intro w hw; cases hw)⟩⟩
    simp only [viewStep, hq, Option.map_some, ppInit]
  | @start_closed ops hpc hprog hcl =>
    obtain ⟨v, l, done, h1, h2, h3, h4, h5, h6, h7, h8⟩ := h
    rw [hprog] at h6
    rw [hpc] at h1
    refine ⟨v, l, done ++ [.start], ?_, h2, h3, h4, h5, by simp [h6], .call h7 ?_, h8⟩
    · show PPMainOk x At Ck idx crashes _ v l s.pc
      rw [hpc]; exact h1
    · simp [viewStep, ← h1.2.1, hcl]
  | @start ops hpc hprog hcl hw =>
    obtain ⟨v, l, done, h1, h2, h3, h4, h5, h6, h7, h8⟩ := h
    rw [hprog] at h6
    rw [hpc] at h1
    obtain ⟨a1, a2, a3, a4, a5⟩ := h1
    obtain ⟨b1, b2⟩ := a5 hcl
    refine ⟨v, l, done ++ [.start], ?_, ?_, h3, h4, h5, by simp [h6], ?_, ?_⟩
    · show PPMainOk x At Ck idx crashes _ v l s.pc
      rw [hpc]
      exact ⟨a1, a2, a3, fun _ => ⟨rfl, hcl⟩, fun _ => ⟨start_count hw b1, fun ho => start_valid sim hw b1 (b2 ho)⟩⟩
    · intro w' hw'
      cases hw'
      exact ok_plain ⟨0, sim.init, by intro _ j h; cases h; rfl⟩ (by simp [ppWorker0])
    · have := ViewRun.call h7 (op := .start) (w' := v) (o := []) (by simp [viewStep, ← a2, hcl])
      simpa using this
    · intro hc
      exact ⟨(h8 hc).1, by intro w' hw'; cases hw'; simp [ppWorker0]⟩
  | @start_again ops w hpc hprog hcl hw =>
    obtain ⟨v, l, done, h1, h2, h3, h4, h5, h6, h7, h8⟩ := h
    rw [hprog] at h6
    rw [hpc] at h1
    refine ⟨v, l, done ++ [.start], ?_, h2, h3, h4, h5, by simp [h6], ?_, h8⟩
    · show PPMainOk x At Ck idx crashes _ v l s.pc
      rw [hpc]; exact h1
    · have := ViewRun.call h7 (op := .start) (w' := v) (o := []) (by simp [viewStep, ← h1.2.1, hcl])
      simpa using this
  | @close ops hpc hprog hw =>
    obtain ⟨v, l, done, h1, h2, h3, h4, h5, h6, h7, h8⟩ := h
    rw [hprog] at h6
    rw [hpc] at h1
    obtain ⟨a1, a2, a3, a4, a5⟩ := h1
    refine ⟨{ v with closed := true }, l, done ++ [.close], ?_, h2, h3, h4, h5, by simp [h6], ?_, h8⟩
    · show PPMainOk x At Ck idx crashes _ _ l s.pc
      rw [hpc]
      exact ⟨a1, rfl, a3, fun h => absurd hw h, by intro hh; cases hh⟩
    · have := ViewRun.call h7 (op := .close) rfl
      simpa using this
  | @close_stop ops w hpc hprog hw =>
    obtain ⟨v, l, done, h1, h2, h3, h4, h5, h6, h7, h8⟩ := h
    rw [hpc] at h1
    obtain ⟨a1, a2, a3, a4, a5⟩ := h1
    exact ⟨v, l, done, ⟨by show s.worker ≠ none; rw [hw]; simp, rfl, a1, rfl, a3, ⟨ops, hprog⟩, fun w' _ => Or.inr (by simpa using (a5 (a4 (by rw [hw]; simp)).2).1.1)⟩, fun w hw => ok_stop (h2 w hw), h3, h4, h5, h6, h7, h8⟩
  | @stop1 k e es hpc hb =>
    obtain ⟨v, l, done, h1, h2, h3, h4, h5, h6, h7, h8⟩ := h
    refine ⟨v, l, done, ?_, h2, h3, h4, h5, h6, h7, h8⟩
    show PPMainOk x At Ck idx crashes _ v l s.pc
    rw [hpc] at h1 ⊢
    exact ⟨h1.1, h1.2.1, cont_pop hb _ rfl rfl rfl rfl rfl rfl rfl rfl rfl rfl h1.2.2⟩
  | @stop1_end k hpc =>
    obtain ⟨v, l, done, h1, h2, h3, h4, h5, h6, h7, h8⟩ := h
    rw [hpc] at h1
    exact ⟨v, l, done, ⟨h1.1, h1.2.1, cont_pc _ h1.2.2⟩, h2, h3, h4, h5, h6, h7, h8⟩
  | @stop2 k j hpc hj =>
    obtain ⟨v, l, done, h1, h2, h3, h4, h5, h6, h7, h8⟩ := h
    rw [hpc] at h1
    refine ⟨v, l, done, ⟨h1.1, h1.2.1, ?_⟩, h2, fun c hc => h3 c (List.mem_of_mem_drop hc), h4, h5, h6, h7, h8⟩
    have hk := h1.2.2
    cases k with
    | close =>
      obtain ⟨a1, a2, a3, a4, a5⟩ := hk
      refine ⟨a1, a2, a3, a4, ?_⟩
      intro w hw
      rcases a5 w hw with h | h
      · exact Or.inl h
      · refine Or.inr ?_
        simp only [List.length_drop]
        omega
    | raise r =>
      obtain ⟨a1, a2, a3, a4, a5, a6, a7, a8, a9⟩ := hk
      exact ⟨a1, a2, a3, a4, a5, a6, clear_count a7 hj, by show s.setCount - j = 0; omega, a9⟩
  | @join k w hpc hw hd =>
    obtain ⟨v, l, done, h1, h2, h3, h4, h5, h6, h7, h8⟩ := h
    rw [hpc] at h1
    refine ⟨v, l, done, ⟨h1.1, h1.2.1, cont_pc _ h1.2.2, ?_⟩, h2, h3, h4, h5, h6, h7, h8⟩
    intro w' hw'
    have hw' : s.worker = some w' := hw'
    rw [hw] at hw'
    cases hw'
    exact hd
  | @stop3 k e es hpc hb =>
    obtain ⟨v, l, done, h1, h2, h3, h4, h5, h6, h7, h8⟩ := h
    refine ⟨v, l, done, ?_, h2, h3, h4, h5, h6, h7, h8⟩
    show PPMainOk x At Ck idx crashes _ v l s.pc
    rw [hpc] at h1 ⊢
    exact ⟨h1.1, h1.2.1, cont_pop hb _ rfl rfl rfl rfl rfl rfl rfl rfl rfl rfl h1.2.2.1, h1.2.2.2⟩
  | @raise r op ops hpc hb hprog =>
    obtain ⟨v, l, done, h1, h⟩ := h
    rw [hpc] at h1
    exact good_raise h1.2.2.1 h hprog
  | @closed op ops hpc hb hprog =>
    obtain ⟨v, l, done, h1, h⟩ := h
    rw [hpc] at h1
    exact good_closed h1.2.2.1 h hprog
  | @kill_raise w r op ops hpc hw hprog hcr =>
    obtain ⟨v, l, done, h1, h⟩ := h
    rw [hpc] at h1
    exact good_raise h1.2.2 h hprog
  | @kill_close w op ops hpc hw hprog hcr =>
    obtain ⟨v, l, done, h1, h⟩ := h
    rw [hpc] at h1
    exact good_closed h1.2.2 h hprog

end
end Grain
