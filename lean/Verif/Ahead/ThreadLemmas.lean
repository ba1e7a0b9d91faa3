import Verif.Ahead.Spec
namespace Grain

section
variable {p : Iter α} {size : Nat}

/-- Elements among entries. -/
def tpElems (l : List (TPEntry α C)) : Nat := l.countP (fun e => match e with | .elem _ _ => true | .err _ => false)

/-- The entry the producer is about to put. -/
def tpHeld : Option (TPProducer α C) → List (TPEntry α C)
  | some (.put e) => [e]
  | _ => []

/-- Entries on their way, oldest first: counters of elements descend from `n` without gaps, an exception is the last one. -/
def tpChain (n : Nat) : List (TPEntry α (C × Nat)) → Prop
  | [] => True
  | .elem _ c :: l => n = c.2 + tpElems l ∧ tpChain n l
  | .err _ :: l => l = []

/-- Some entry is an exception. -/
def tpHasErr (l : List (TPEntry α C)) : Prop := ∃ r, TPEntry.err r ∈ l

def tpActive : Option (TPProducer α C) → Prop
  | some .check => True
  | some .read => True
  | some (.put (.elem _ _)) => True
  | _ => False

def tpReading : Option (TPProducer α C) → Nat
  | some .read => 1
  | _ => 0

/-- What holds while the thread is being stopped. -/
def tpStopping (size : Nat) (s : TPSys p.counted) (k : TPCont α p.counted.C) : Prop :=
  s.stop = true ∧
  match k with
  | .raise _ => ¬ tpActive s.thread ∧ ∀ c, s.state = some c → s.ps.2 ≤ c.2
  | .close => s.closed = true ∧ ∀ c, s.state = some c → s.ps.2 + tpReading s.thread ≤ c.2 + size + 1
  | .getIndex c => s.state = some c ∧ s.ps.2 + tpReading s.thread ≤ c.2 + size + 1
  | _ => ∀ c, s.state = some c → s.ps.2 + tpReading s.thread ≤ c.2 + size + 1

/-- What holds in the phases of the consumer. -/
def tpMode (size : Nat) (s : TPSys p.counted) : TPConsumer α p.counted.C → Prop
  | .idle => ∀ c, s.state = some c → s.ps.2 ≤ c.2 + tpElems (s.buf ++ tpHeld s.thread) ∨
      (s.closed = true ∧ s.thread = none ∧ s.ps.2 ≤ c.2 + size + 1)
  | .get => s.thread ≠ none ∧ ∀ c, s.state = some c → s.ps.2 ≤ c.2 + tpElems (s.buf ++ tpHeld s.thread)
  | .clear1 k => s.thread ≠ none ∧ tpStopping size s k
  | .join k => tpStopping size s k
  | .clear2 k => s.thread = none ∧ tpStopping size s k

structure TPAhead (size : Nat) (s : TPSys p.counted) : Prop where
  len : s.buf.length ≤ size
  chain : tpChain s.ps.2 (s.buf ++ tpHeld s.thread)
  errs : tpHasErr (s.buf ++ tpHeld s.thread) → ¬ tpActive s.thread
  noThread : s.thread = none → s.buf = [] ∨ ∃ k, s.pc = .clear2 k
  mode : tpMode size s s.pc

theorem tpChain_tail {n : Nat} {e : TPEntry α (C × Nat)} {l : List (TPEntry α (C × Nat))} (h : tpChain n (e :: l)) : tpChain n l := by
  cases e with
  | elem a c => exact h.2
  | err r => rw [show l = [] from h]; trivial

theorem tpElems_append (l m : List (TPEntry α C)) : tpElems (l ++ m) = tpElems l + tpElems m := List.countP_append

theorem tpElems_le (l : List (TPEntry α C)) : tpElems l ≤ l.length := List.countP_le_length

theorem tpElems_held (t : Option (TPProducer α C)) : tpElems (tpHeld t) + tpReading t ≤ 1 := by
  rcases t with _ | (_ | _ | (_ | _) | _) <;> simp [tpHeld, tpElems, tpReading]

/-- A new element at the end. -/
theorem tpChain_snoc {n : Nat} {a : α} {c : C × Nat} (hc : c.2 = n + 1) : ∀ {l : List (TPEntry α (C × Nat))}, tpChain n l → ¬ tpHasErr l →
    tpChain (n + 1) (l ++ [.elem a c])
  | [], _, _ => ⟨by simp [tpElems, hc], trivial⟩
  | .elem b d :: l, h, he => by
    refine ⟨?_, tpChain_snoc hc h.2 (fun ⟨r, hr⟩ => he ⟨r, List.mem_cons_of_mem _ hr⟩)⟩
    have := h.1
    show n + 1 = d.2 + tpElems (l ++ [.elem a c])
    rw [tpElems_append]
    simp only [tpElems, List.countP_cons, List.countP_nil, if_true] at *
    omega
  | .err r :: l, _, he => absurd ⟨r, List.mem_cons_self⟩ he

theorem tpChain_err {n : Nat} {r : Res α} : ∀ {l : List (TPEntry α (C × Nat))}, tpChain n l → ¬ tpHasErr l → tpChain n (l ++ [.err r])
  | [], _, _ => rfl
  | .elem b d :: l, h, he => by
    refine ⟨?_, tpChain_err h.2 (fun ⟨r, hr⟩ => he ⟨r, List.mem_cons_of_mem _ hr⟩)⟩
    have := h.1
    show n = d.2 + tpElems (l ++ [.err r])
    rw [tpElems_append]
    simpa [tpElems] using this
  | .err r :: l, _, he => absurd ⟨r, List.mem_cons_self⟩ he

theorem counted_next {s : p.counted.S} {t : p.counted.S} {r : Res α} (h : Ev (fun F => p.counted.next F s = some (t, r))) :
    t.2 = s.2 + r.elements := by
  obtain ⟨N, hN⟩ := h
  have h := hN N (Nat.le_refl _)
  obtain ⟨y, _, hy⟩ := Option.map_eq_some_iff.1 h
  obtain ⟨h1, h2⟩ := Prod.mk.inj hy
  rw [← h1, ← h2]

theorem counted_set {s : p.counted.S} {c : p.counted.C} {t : p.counted.S} (h : Ev (fun F => p.counted.set F s c = some (t, none))) :
    t.2 = c.2 := by
  obtain ⟨N, hN⟩ := h
  have h := hN N (Nat.le_refl _)
  obtain ⟨y, _, hy⟩ := Option.map_eq_some_iff.1 h
  obtain ⟨h1, h2⟩ := Prod.mk.inj hy
  rw [← h1]

theorem tpState_ps (s : TPSys p.counted) : (tpState s).1.2 = s.ps.2 := by
  unfold tpState
  cases s.state <;> rfl

theorem tpHeld_afterPut (e : TPEntry α C) : tpHeld (some (tpAfterPut e)) = [] := by cases e <;> rfl

theorem tpReading_afterPut (e : TPEntry α C) : tpReading (some (tpAfterPut e)) = 0 := by cases e <;> rfl

/-- A step of the producer that takes one `n` further with the same entries, or adds one. -/
theorem TPAhead.producer {s s' : TPSys p.counted} (h : TPAhead size s) (hpc : s'.pc = s.pc) (hst : s'.state = s.state)
    (hcl : s'.closed = s.closed) (hstop : s'.stop = s.stop) (ht : s.thread ≠ none) (ht' : s'.thread ≠ none)
    (hlen : s'.buf.length ≤ size) (hchain : tpChain s'.ps.2 (s'.buf ++ tpHeld s'.thread))
    (herrs : tpHasErr (s'.buf ++ tpHeld s'.thread) → ¬ tpActive s'.thread)
    (hn : s'.ps.2 + tpElems (s.buf ++ tpHeld s.thread) ≤ s.ps.2 + tpElems (s'.buf ++ tpHeld s'.thread))
    (hr : s.stop = true → s'.ps.2 + tpReading s'.thread ≤ s.ps.2 + tpReading s.thread)
    (ha : ¬ tpActive s.thread → ¬ tpActive s'.thread ∧ s'.ps.2 ≤ s.ps.2) : TPAhead size s' := by
  have hstopping : ∀ k, tpStopping size s k → tpStopping size s' k := by
    intro k hk
    obtain ⟨hk1, hk2⟩ := hk
    have hr := hr hk1
    refine ⟨hstop.trans hk1, ?_⟩
    cases k with
    | raise r =>
      obtain ⟨h1, h2⟩ := hk2
      exact ⟨(ha h1).1, fun c hc => Nat.le_trans (ha h1).2 (h2 c (hst ▸ hc))⟩
    | restore c => intro c hc; have := hk2 c (hst ▸ hc); omega
    | close => exact ⟨hcl.trans hk2.1, fun c hc => by have := hk2.2 c (hst ▸ hc); omega⟩
    | getIndex c => exact ⟨hst.trans hk2.1, by have := hk2.2; omega⟩
    | setIndex i => intro c hc; have := hk2 c (hst ▸ hc); omega
  refine ⟨hlen, hchain, herrs, fun hh => absurd hh ht', ?_⟩
  have hm := h.mode
  rw [hpc]
  cases hp : s.pc with
  | idle =>
    rw [hp] at hm
    intro c hc
    rcases hm c (hst ▸ hc) with h1 | h1
    · left; omega
    · exact absurd h1.2.1 ht
  | get =>
    rw [hp] at hm
    exact ⟨ht', fun c hc => by have := hm.2 c (hst ▸ hc); omega⟩
  | clear1 k => rw [hp] at hm; exact ⟨ht', hstopping k hm.2⟩
  | join k => rw [hp] at hm; exact hstopping k hm
  | clear2 k => rw [hp] at hm; exact absurd hm.1 ht

/-- The start of `_stop_prefetch` for anything but an exception. -/
theorem TPAhead.stopping {s : TPSys p.counted} (h : TPAhead size s) (hpc : s.pc = .idle) (ht : s.thread ≠ none) {c : p.counted.C}
    (hc : s.state = some c) : s.ps.2 + tpReading s.thread ≤ c.2 + size + 1 := by
  have hm := h.mode
  rw [hpc] at hm
  rcases hm c hc with h1 | h1
  · rw [tpElems_append] at h1
    have := tpElems_held s.thread
    have := tpElems_le s.buf
    have := h.len
    omega
  · exact absurd h1.2.1 ht

theorem tpAhead_step (hsize : 0 < size) {s s' : TPSys p.counted} (h : TPAhead size s) (hstep : TPStep p.counted size s s') :
    TPAhead size s' := by
  have hm := h.mode
  cases hstep with
  | check_go ht hs =>
    refine h.producer rfl rfl rfl rfl (by simp [ht]) (by simp) h.len (by simpa [tpHeld, ht] using h.chain) ?_ (by simp [tpHeld, ht])
      (by simp [hs]) (fun hh => absurd (by simp [tpActive, ht]) hh)
    intro he
    exact absurd (show tpActive s.thread by rw [ht]; trivial) (h.errs (by simpa [tpHeld, ht] using he))
  | check_stop ht hs =>
    exact h.producer rfl rfl rfl rfl (by simp [ht]) (by simp) h.len (by simpa [tpHeld, ht] using h.chain) (fun _ => by simp [tpActive])
      (by simp [tpHeld, ht]) (by simp [tpReading]) (fun hh => absurd (by simp [tpActive, ht]) hh)
  | @read ps' r ht hr =>
    have hn := counted_next hr
    have hact : tpActive s.thread := by rw [ht]; trivial
    have herr : ¬ tpHasErr (s.buf ++ tpHeld s.thread) := fun he => h.errs he hact
    have hch := h.chain
    rw [show tpHeld s.thread = [] by rw [ht]; rfl, List.append_nil] at hch herr
    cases r with
    | item a =>
      have hn : ps'.2 = s.ps.2 + 1 := hn
      have h2 : (tpProduce p.counted ps' (.item a)).1.2 = s.ps.2 + 1 := hn
      refine h.producer rfl rfl rfl rfl (by simp [ht]) (by simp) h.len ?_ ?_ ?_ ?_ (fun hh => absurd hact hh)
      · show tpChain (tpProduce p.counted ps' (.item a)).1.2 (s.buf ++ [.elem a (p.counted.get ps').2])
        rw [h2]
        exact tpChain_snoc (C := p.C) (l := s.buf) hn hch herr
      · rintro ⟨r, hr⟩
        rcases List.mem_append.1 hr with hr | hr
        · exact absurd ⟨r, hr⟩ herr
        · simp [tpHeld, tpProduce] at hr
      · show (tpProduce p.counted ps' (.item a)).1.2 + tpElems (s.buf ++ tpHeld s.thread) ≤
          s.ps.2 + tpElems (s.buf ++ [.elem a (p.counted.get ps').2])
        rw [h2, ht, tpElems_append, tpElems_append]
        simp [tpHeld, tpElems]
        omega
      · intro _
        show (tpProduce p.counted ps' (.item a)).1.2 + 0 ≤ _
        rw [h2, ht]
        exact Nat.le_refl _
    | stop =>
      have hn : ps'.2 = s.ps.2 := hn
      refine h.producer rfl rfl rfl rfl (by simp [ht]) (by simp) h.len ?_ ?_ ?_ ?_ (fun hh => absurd hact hh)
      · show tpChain ps'.2 (s.buf ++ [.err .stop])
        rw [hn]
        exact tpChain_err hch herr
      · exact fun _ hh => hh
      · show ps'.2 + tpElems (s.buf ++ tpHeld s.thread) ≤ s.ps.2 + tpElems (s.buf ++ [.err .stop])
        rw [hn, ht, tpElems_append, tpElems_append]
        simp [tpHeld, tpElems]
      · intro _
        show ps'.2 + 0 ≤ _
        rw [hn]
        exact Nat.le_add_right _ _
    | fail e =>
      have hn : ps'.2 = s.ps.2 := hn
      refine h.producer rfl rfl rfl rfl (by simp [ht]) (by simp) h.len ?_ ?_ ?_ ?_ (fun hh => absurd hact hh)
      · show tpChain ps'.2 (s.buf ++ [.err (.fail e)])
        rw [hn]
        exact tpChain_err hch herr
      · exact fun _ hh => hh
      · show ps'.2 + tpElems (s.buf ++ tpHeld s.thread) ≤ s.ps.2 + tpElems (s.buf ++ [.err (.fail e)])
        rw [hn, ht, tpElems_append, tpElems_append]
        simp [tpHeld, tpElems]
      · intro _
        show ps'.2 + 0 ≤ _
        rw [hn]
        exact Nat.le_add_right _ _
  | @put e ht hroom =>
    have hl : s.buf ++ [e] ++ tpHeld (some (tpAfterPut e)) = s.buf ++ tpHeld s.thread := by
      rw [tpHeld_afterPut, ht]; simp [tpHeld]
    refine h.producer rfl rfl rfl rfl (by simp [ht]) (by simp) ?_ ?_ ?_ ?_ ?_ ?_
    · rcases hroom with hr | hr
      · omega
      · simp only [List.length_append, List.length_cons, List.length_nil]; omega
    · show tpChain s.ps.2 (s.buf ++ [e] ++ tpHeld (some (tpAfterPut e)))
      rw [hl]
      exact h.chain
    · show tpHasErr (s.buf ++ [e] ++ tpHeld (some (tpAfterPut e))) → ¬ tpActive (some (tpAfterPut e))
      rw [hl]
      intro he
      have := h.errs he
      rw [ht] at this
      cases e with
      | elem a c => exact absurd trivial this
      | err r => exact fun hh => hh
    · show s.ps.2 + _ ≤ s.ps.2 + tpElems (s.buf ++ [e] ++ tpHeld (some (tpAfterPut e)))
      rw [hl]; exact Nat.le_refl _
    · intro _
      show s.ps.2 + tpReading (some (tpAfterPut e)) ≤ _
      rw [tpReading_afterPut]
      exact Nat.le_add_right _ _
    · intro hh
      refine ⟨?_, Nat.le_refl _⟩
      rw [ht] at hh
      cases e with
      | elem a c => exact absurd trivial hh
      | err r => exact fun hh => hh
  | next_closed hpc => exact ⟨h.len, h.chain, h.errs, h.noThread, hm⟩
  | next_start hpc _ _ hcl ht =>
    rw [hpc] at hm
    have hb : s.buf = [] := (h.noThread ht).resolve_right (by simp [hpc])
    have hl : s.buf ++ tpHeld (some (TPProducer.check (α := α) (C := p.counted.C))) = s.buf ++ tpHeld s.thread := by rw [ht]; rfl
    refine ⟨h.len, ?_, ?_, fun hh => by simp at hh, by simp, ?_⟩
    · exact (congrArg (tpChain (C := p.C) s.ps.2) hl).mpr h.chain
    · show tpHasErr (s.buf ++ tpHeld (some .check)) → _
      rw [hb]
      rintro ⟨r, hr⟩
      simp [tpHeld] at hr
    · intro c hc
      rcases hm c hc with h1 | h1
      · show s.ps.2 ≤ c.2 + tpElems (s.buf ++ tpHeld (some .check))
        rw [hl]; exact h1
      · rw [hcl] at h1; simp at h1
  | next_wait hpc _ _ hcl ht =>
    rw [hpc] at hm
    refine ⟨h.len, h.chain, h.errs, fun hh => by simp [ht] at hh, by simp [ht], ?_⟩
    intro c hc
    rcases hm c hc with h1 | h1
    · exact h1
    · rw [hcl] at h1; simp at h1
  | @get_elem ops a c es hpc _ hb =>
    rw [hpc] at hm
    have hch := h.chain
    rw [hb] at hch
    refine ⟨?_, hch.2, ?_, fun hh => absurd hh hm.1, ?_⟩
    · have := h.len; rw [hb] at this; exact Nat.le_of_succ_le this
    · rintro ⟨r, hr⟩
      exact h.errs ⟨r, by rw [hb]; exact List.mem_cons_of_mem _ hr⟩
    · intro c' hc'
      cases hc'
      exact Or.inl (Nat.le_of_eq hch.1)
  | @get_err r es hpc hb =>
    rw [hpc] at hm
    have hch := h.chain
    rw [hb] at hch
    have hnil : es ++ tpHeld s.thread = [] := hch
    have hes := List.append_eq_nil_iff.1 hnil
    refine ⟨?_, ?_, ?_, fun hh => absurd hh hm.1, hm.1, rfl, ?_, ?_⟩
    · rw [hes.1]; exact Nat.zero_le _
    · show tpChain s.ps.2 (es ++ tpHeld s.thread)
      rw [hnil]; trivial
    · rintro ⟨r, hr⟩
      rw [hnil] at hr; cases hr
    · exact h.errs ⟨r, by rw [hb]; exact List.mem_cons_self⟩
    · intro c hc
      have := hm.2 c hc
      rw [hb, List.cons_append, hnil] at this
      exact this
  | zero_elem _ _ hz => omega
  | zero_err _ _ hz => omega
  | zero_item _ _ hz => omega
  | zero_raise _ _ hz => omega
  | save hpc _ =>
    rw [hpc] at hm
    refine ⟨h.len, ?_, h.errs, h.noThread, ?_⟩
    · show tpChain (tpState s).1.2 _
      rw [tpState_ps]; exact h.chain
    · show tpMode size _ s.pc
      rw [hpc]
      intro c hc
      cases hc
      show (tpState s).1.2 ≤ (tpState s).2.2 + _ ∨ (_ ∧ _ ∧ (tpState s).1.2 ≤ (tpState s).2.2 + size + 1)
      rw [tpState_ps]
      cases hs : s.state with
      | none =>
        left
        unfold tpState
        rw [hs]
        exact Nat.le_add_right _ _
      | some c =>
        unfold tpState
        rw [hs]
        exact hm c hs
  | restore_stop hpc _ _ ht =>
    refine ⟨h.len, h.chain, h.errs, fun hh => by simp [ht] at hh, by simp [ht], rfl, ?_⟩
    intro c hc
    exact h.stopping hpc (by simp [ht]) hc
  | @restore ops k c ps' hpc _ _ ht hset =>
    have hb : s.buf = [] := (h.noThread ht).resolve_right (by simp [hpc])
    have hset := counted_set hset
    refine ⟨h.len, ?_, ?_, fun _ => Or.inl hb, ?_⟩
    · show tpChain _ (s.buf ++ tpHeld s.thread)
      rw [hb, ht]; trivial
    · rintro ⟨r, hr⟩
      have hr : _ ∈ s.buf ++ tpHeld s.thread := hr
      rw [hb, ht] at hr; cases hr
    · show tpMode size _ s.pc
      rw [hpc]
      intro c hc
      cases hc
      exact Or.inl (Nat.le_add_right _ _)
  | @fresh ops k c ps' hpc _ _ hset =>
    refine ⟨Nat.zero_le _, trivial, fun ⟨r, hr⟩ => (by cases hr), fun _ => Or.inl rfl, ?_⟩
    intro c hc
    cases hc
    exact Or.inl (Nat.le_add_right _ _)
  | start_closed hpc => exact ⟨h.len, h.chain, h.errs, h.noThread, hm⟩
  | start hpc _ hcl ht =>
    rw [hpc] at hm
    have hb : s.buf = [] := (h.noThread ht).resolve_right (by simp [hpc])
    have hl : s.buf ++ tpHeld (some (TPProducer.check (α := α) (C := p.counted.C))) = s.buf ++ tpHeld s.thread := by rw [ht]; rfl
    refine ⟨h.len, ?_, ?_, fun hh => by simp at hh, ?_⟩
    · exact (congrArg (tpChain (C := p.C) s.ps.2) hl).mpr h.chain
    · show tpHasErr (s.buf ++ tpHeld (some .check)) → _
      rw [hb]
      rintro ⟨r, hr⟩
      simp [tpHeld] at hr
    · show tpMode size _ s.pc
      rw [hpc]
      intro c hc
      rcases hm c hc with h1 | h1
      · left
        show s.ps.2 ≤ c.2 + tpElems (s.buf ++ tpHeld (some .check))
        rw [hl]; exact h1
      · rw [hcl] at h1; simp at h1
  | start_again hpc => exact ⟨h.len, h.chain, h.errs, h.noThread, hm⟩
  | close_stop hpc _ ht =>
    refine ⟨h.len, h.chain, h.errs, fun hh => by simp [ht] at hh, by simp [ht], rfl, rfl, ?_⟩
    intro c hc
    exact h.stopping hpc (by simp [ht]) hc
  | close hpc _ ht =>
    rw [hpc] at hm
    refine ⟨h.len, h.chain, h.errs, h.noThread, ?_⟩
    show tpMode size _ s.pc
    rw [hpc]
    intro c hc
    rcases hm c hc with h1 | h1
    · exact Or.inl h1
    · exact Or.inr ⟨rfl, h1.2⟩
  | index_known hpc => exact ⟨h.len, h.chain, h.errs, h.noThread, hm⟩
  | index_stop hpc _ _ ht =>
    refine ⟨h.len, ?_, h.errs, fun hh => by simp [ht] at hh, by simp [ht], rfl, rfl, ?_⟩
    · show tpChain (tpState s).1.2 _
      rw [tpState_ps]; exact h.chain
    · show (tpState s).1.2 + tpReading s.thread ≤ (tpState s).2.2 + size + 1
      rw [tpState_ps]
      cases hs : s.state with
      | none =>
        unfold tpState
        rw [hs]
        have := tpElems_held s.thread
        show s.ps.2 + _ ≤ s.ps.2 + size + 1
        omega
      | some c =>
        have := h.stopping hpc (by simp [ht]) hs
        unfold tpState
        rw [hs]
        exact this
  | @index ops ps' i hpc _ _ ht hset _ =>
    have hb : s.buf = [] := (h.noThread ht).resolve_right (by simp [hpc])
    have hset := counted_set hset
    refine ⟨h.len, ?_, ?_, fun _ => Or.inl hb, ?_⟩
    · show tpChain _ (s.buf ++ tpHeld s.thread)
      rw [hb, ht]; trivial
    · rintro ⟨r, hr⟩
      have hr : _ ∈ s.buf ++ tpHeld s.thread := hr
      rw [hb, ht] at hr; cases hr
    · show tpMode size _ s.pc
      rw [hpc]
      intro c hc
      cases hc
      left
      show ps'.2 ≤ _
      rw [hset]
      exact Nat.le_add_right _ _
  | set_index_stop hpc _ ht =>
    refine ⟨h.len, h.chain, h.errs, fun hh => by simp [ht] at hh, by simp [ht], rfl, ?_⟩
    intro c hc
    exact h.stopping hpc (by simp [ht]) hc
  | @set_index ops ps' i hpc _ ht _ =>
    have hb : s.buf = [] := (h.noThread ht).resolve_right (by simp [hpc])
    refine ⟨h.len, ?_, ?_, fun _ => Or.inl hb, ?_⟩
    · show tpChain _ (s.buf ++ tpHeld s.thread)
      rw [hb, ht]; trivial
    · rintro ⟨r, hr⟩
      have hr : _ ∈ s.buf ++ tpHeld s.thread := hr
      rw [hb, ht] at hr; cases hr
    · show tpMode size _ s.pc
      rw [hpc]
      intro c hc
      cases hc
  | @clear1 k e es hpc hb =>
    rw [hpc] at hm
    have hch := h.chain
    rw [hb] at hch
    refine ⟨?_, tpChain_tail hch, ?_, fun hh => absurd hh hm.1, ?_⟩
    · have := h.len; rw [hb] at this; exact Nat.le_of_succ_le this
    · rintro ⟨r, hr⟩
      exact h.errs ⟨r, by rw [hb]; exact List.mem_cons_of_mem _ hr⟩
    · show tpMode size _ s.pc
      rw [hpc]
      exact hm
  | clear1_end hpc hb =>
    rw [hpc] at hm
    exact ⟨h.len, h.chain, h.errs, fun _ => Or.inl hb, hm.2⟩
  | @join k hpc ht =>
    rw [hpc] at hm
    have hl : s.buf ++ tpHeld (none : Option (TPProducer α p.counted.C)) = s.buf ++ tpHeld s.thread := by rw [ht]; rfl
    have hr : tpReading (none : Option (TPProducer α p.counted.C)) = tpReading s.thread := by rw [ht]; rfl
    refine ⟨h.len, ?_, fun _ hh => hh, fun _ => Or.inr ⟨k, rfl⟩, rfl, hm.1, ?_⟩
    · exact (congrArg (tpChain (C := p.C) s.ps.2) hl).mpr h.chain
    · have h2 := hm.2
      cases k with
      | raise r => exact ⟨fun hh => hh, h2.2⟩
      | restore c => intro c hc; exact hr ▸ h2 c hc
      | close => exact ⟨h2.1, fun c hc => hr ▸ h2.2 c hc⟩
      | getIndex c => exact ⟨h2.1, hr ▸ h2.2⟩
      | setIndex i => intro c hc; exact hr ▸ h2 c hc
  | @clear2 k e es hpc hb =>
    rw [hpc] at hm
    have hch := h.chain
    rw [hb] at hch
    refine ⟨?_, tpChain_tail hch, ?_, fun _ => Or.inr ⟨k, hpc⟩, ?_⟩
    · have := h.len; rw [hb] at this; exact Nat.le_of_succ_le this
    · rintro ⟨r, hr⟩
      exact h.errs ⟨r, by rw [hb]; exact List.mem_cons_of_mem _ hr⟩
    · show tpMode size _ s.pc
      rw [hpc]
      exact hm
  | raise hpc hb _ =>
    rw [hpc] at hm
    refine ⟨h.len, h.chain, h.errs, fun _ => Or.inl hb, ?_⟩
    intro c hc
    exact Or.inl (Nat.le_trans (hm.2.2.2 c hc) (Nat.le_add_right _ _))
  | @restored c op ops ps' hpc hb _ hset =>
    rw [hpc] at hm
    refine ⟨h.len, ?_, ?_, fun _ => Or.inl hb, ?_⟩
    · show tpChain _ (s.buf ++ tpHeld s.thread)
      rw [hb, hm.1]; trivial
    · rintro ⟨r, hr⟩
      have hr : _ ∈ s.buf ++ tpHeld s.thread := hr
      rw [hb, hm.1] at hr; cases hr
    · intro c hc
      cases hc
      exact Or.inl (Nat.le_add_right _ _)
  | closed hpc hb _ =>
    rw [hpc] at hm
    refine ⟨h.len, h.chain, h.errs, fun _ => Or.inl hb, ?_⟩
    intro c hc
    refine Or.inr ⟨hm.2.2.1, hm.1, ?_⟩
    have := hm.2.2.2 c hc
    show s.ps.2 ≤ _
    omega
  | @indexed c op ops ps' i hpc hb _ hset _ =>
    rw [hpc] at hm
    have hset := counted_set hset
    refine ⟨h.len, ?_, ?_, fun _ => Or.inl hb, ?_⟩
    · show tpChain _ (s.buf ++ tpHeld s.thread)
      rw [hb, hm.1]; trivial
    · rintro ⟨r, hr⟩
      have hr : _ ∈ s.buf ++ tpHeld s.thread := hr
      rw [hb, hm.1] at hr; cases hr
    · intro c' hc'
      have hc' : s.state = some c' := hc'
      rw [hm.2.2.1] at hc'
      cases hc'
      left
      show ps'.2 ≤ _
      rw [hset]
      exact Nat.le_add_right _ _
  | @index_set op ops ps' i hpc hb _ _ =>
    rw [hpc] at hm
    refine ⟨h.len, ?_, ?_, fun _ => Or.inl hb, ?_⟩
    · show tpChain _ (s.buf ++ tpHeld s.thread)
      rw [hb, hm.1]; trivial
    · rintro ⟨r, hr⟩
      have hr : _ ∈ s.buf ++ tpHeld s.thread := hr
      rw [hb, hm.1] at hr; cases hr
    · intro c hc
      cases hc

theorem tpAhead_run (hsize : 0 < size) {prog : List TOp} {s : TPSys p.counted} (hrun : TPRun p.counted size (tpInit p.counted prog) s) :
    TPAhead size s := by
  induction hrun with
  | refl =>
    refine ⟨Nat.zero_le _, trivial, fun ⟨r, hr⟩ => (by cases hr), fun _ => Or.inl rfl, ?_⟩
    intro c hc
    cases hc
    exact Or.inl (Nat.le_add_right _ _)
  | step _ hst ih => exact tpAhead_step hsize ih hst

end
end Grain
