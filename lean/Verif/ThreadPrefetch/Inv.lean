import Verif.ThreadPrefetch.Lemmas
namespace Grain

section
variable {p : Iter α} {x : Nat → Option (Py α)} {At : p.S → Nat → Prop} {Ck : p.C → Nat → Prop} {size : Nat} {idx : Nat → Bool}

private theorem good_producer {s : TPSys p} {total : List (Res α ⊕ Int)} (h : TPGood x At Ck idx size total s)
    {ps' : p.S} {buf' : List (TPEntry α p.C)} {th' : Option (TPProducer α p.C)}
    (hpc : ∀ pos, TPPcOk x At Ck size s pos s.pc → TPPcOk x At Ck size { s with ps := ps', buf := buf', thread := th' } pos s.pc) :
    TPGood x At Ck idx size total { s with ps := ps', buf := buf', thread := th' } := by
  obtain ⟨pos, last, mv, sp, rest, h1, h2, h3, h4, h5, h6, h7⟩ := h
  exact ⟨pos, last, mv, sp, rest, hpc pos h1, h2, h3, h4, h5, h6, h7⟩

private theorem pc_check_go {s : TPSys p} {pos : Nat} (ht : s.thread = some .check) (hs : s.stop = false)
    (h : TPPcOk x At Ck size s pos s.pc) : TPPcOk x At Ck size { s with thread := some .read } pos s.pc := by
  have hr : TPRunning x At Ck s pos → TPRunning x At Ck { s with thread := some .read } pos := by
    rintro ⟨t, m, b, h1, h2, h3, h4, h5, _⟩
    rw [ht] at h1
    cases h1
    exact ⟨.read, m, b, rfl, h2, h3, h4, fun _ => h5 (Or.inl rfl), by intro hh; cases hh⟩
  generalize s.pc = q at h
  cases q with
  | idle =>
    rcases h with ⟨h, _⟩ | ⟨h1, h2⟩
    · rw [ht] at h; cases h
    · exact Or.inr ⟨hr h1, h2⟩
  | get =>
    obtain ⟨h1, h2, h3, h4⟩ := h
    exact ⟨h1, h2, h3, hr h4⟩
  | clear1 k => have := h.2.1; rw [hs] at this; cases this
  | join k => have := h.2.1; rw [hs] at this; cases this
  | clear2 k => have := h.1; rw [ht] at this; cases this

private theorem cont_stopped {s : TPSys p} {pos : Nat} {k : TPCont α p.C} {ps' : p.S} {buf' : List (TPEntry α p.C)}
    {th' : Option (TPProducer α p.C)} (h : TPContOk x At s pos k)
    (hat : ∀ m, At s.ps m → ∃ m', At ps' m') (hne : s.thread ≠ some .exited) (hne' : s.thread ≠ none) :
    TPContOk x At { s with ps := ps', buf := buf', thread := th' } pos k := by
  cases k with
  | raise r => rcases h.2.2.2.2.2.2 with h' | h' <;> contradiction
  | restore c =>
    obtain ⟨h1, h2, m, h3⟩ := h
    exact ⟨h1, h2, hat m h3⟩
  | close =>
    obtain ⟨h1, h2, m, h3⟩ := h
    exact ⟨h1, h2, hat m h3⟩
  | getIndex c =>
    obtain ⟨h1, h2, h3, h4, m, h5⟩ := h
    exact ⟨h1, h2, h3, h4, hat m h5⟩
  | setIndex i =>
    obtain ⟨h1, h2, m, h3⟩ := h
    exact ⟨h1, h2, hat m h3⟩

private theorem pc_check_stop {s : TPSys p} {pos : Nat} (ht : s.thread = some .check) (hs : s.stop = true)
    (h : TPPcOk x At Ck size s pos s.pc) : TPPcOk x At Ck size { s with thread := some .exited } pos s.pc := by
  have hr : TPRunning x At Ck s pos → False := by
    rintro ⟨t, m, b, h1, h2, _⟩
    rw [hs] at h2
    cases h2
  generalize s.pc = q at h
  cases q with
  | idle =>
    rcases h with ⟨h, _⟩ | ⟨h1, h2⟩
    · rw [ht] at h; cases h
    · exact (hr h1).elim
  | get => exact (hr h.2.2.2).elim
  | clear1 k =>
    obtain ⟨h1, h2, h3, h4⟩ := h
    exact ⟨⟨_, rfl⟩, h2, h3, cont_stopped h4 (fun m hm => ⟨m, hm⟩) (by rw [ht]; simp) (by rw [ht]; simp)⟩
  | join k =>
    obtain ⟨h1, h2, h3, h4⟩ := h
    exact ⟨⟨_, rfl, by rintro (hh | ⟨e, hh⟩) <;> cases hh⟩, h2, h3,
      cont_stopped h4 (fun m hm => ⟨m, hm⟩) (by rw [ht]; simp) (by rw [ht]; simp)⟩
  | clear2 k => have := h.1; rw [ht] at this; cases this

private theorem produce_at (sim : SimStream p x At Ck) {s ps' : p.S} {m : Nat} {r : Res α} (hat : At s m)
    (hn : Ev (fun F => p.next F s = some (ps', r))) :
    r = streamRes x m ∧ At ps' (streamPos x m) ∧ At (tpProduce p ps' r).1 (streamPos x m) := by
  obtain ⟨s', e1, e2⟩ := sim.next hat
  have := ev_unique hn e1
  cases this
  refine ⟨rfl, e2, ?_⟩
  cases hr : streamRes x m with
  | item a => exact (sim.get e2).1
  | stop => exact e2
  | fail e => exact e2

private theorem pc_read (sim : SimStream p x At Ck) {s : TPSys p} {pos : Nat} {ps' : p.S} {r : Res α} (ht : s.thread = some .read)
    (hn : Ev (fun F => p.next F s.ps = some (ps', r))) (h : TPPcOk x At Ck size s pos s.pc) :
    TPPcOk x At Ck size { s with ps := (tpProduce p ps' r).1, thread := some (.put (tpProduce p ps' r).2) } pos s.pc := by
  have hat : ∀ m, At s.ps m → ∃ m', At (tpProduce p ps' r).1 m' := fun m hm => ⟨_, (produce_at sim hm hn).2.2⟩
  have hr : TPRunning x At Ck s pos →
      TPRunning x At Ck { s with ps := (tpProduce p ps' r).1, thread := some (.put (tpProduce p ps' r).2) } pos := by
    rintro ⟨t, m, b, h1, h2, h3, h4, h5, _⟩
    rw [ht] at h1
    cases h1
    have hb := h5 (Or.inr rfl)
    subst hb
    obtain ⟨q1, q2, q3⟩ := produce_at sim h4 hn
    have h3' : BufAt x Ck pos s.buf m false := by simpa [tpPending] using h3
    cases hr : r with
    | item a =>
      rw [hr] at q1
      obtain ⟨r1, r2⟩ := streamRes_item q1.symm
      rw [r2] at q2
      obtain ⟨g1, g2⟩ := sim.get q2
      refine ⟨_, m + 1, false, rfl, h2, h3'.snoc_elem rfl r1 g2, g1, fun _ => rfl, by intro hh; cases hh⟩
    | stop =>
      rw [hr] at q1
      refine ⟨_, streamPos x m, true, rfl, h2, ?_, q2, (by rintro (hh | hh) <;> cases hh), fun _ => rfl⟩
      have := h3'.snoc_err rfl (by rw [← q1]; intro a ha; cases ha)
      rw [← q1] at this
      exact this
    | fail e =>
      rw [hr] at q1
      refine ⟨_, streamPos x m, true, rfl, h2, ?_, q2, (by rintro (hh | hh) <;> cases hh), fun _ => rfl⟩
      have := h3'.snoc_err rfl (by rw [← q1]; intro a ha; cases ha)
      rw [← q1] at this
      exact this
  generalize s.pc = q at h
  cases q with
  | idle =>
    rcases h with ⟨h, _⟩ | ⟨h1, h2⟩
    · rw [ht] at h; cases h
    · exact Or.inr ⟨hr h1, h2⟩
  | get =>
    obtain ⟨h1, h2, h3, h4⟩ := h
    exact ⟨h1, h2, h3, hr h4⟩
  | clear1 k =>
    obtain ⟨h1, h2, h3, h4⟩ := h
    exact ⟨⟨_, rfl⟩, h2, h3, cont_stopped h4 hat (by rw [ht]; simp) (by rw [ht]; simp)⟩
  | join k =>
    obtain ⟨⟨t, h1, h1'⟩, h2, h3, h4⟩ := h
    rw [ht] at h1
    cases h1
    exact ⟨⟨_, rfl, fun _ => h1' (Or.inl rfl)⟩, h2, h3, cont_stopped h4 hat (by rw [ht]; simp) (by rw [ht]; simp)⟩
  | clear2 k => have := h.1; rw [ht] at this; cases this

private theorem pc_put {s : TPSys p} {pos : Nat} {e : TPEntry α p.C} (ht : s.thread = some (.put e))
    (h : TPPcOk x At Ck size s pos s.pc) :
    TPPcOk x At Ck size { s with buf := s.buf ++ [e], thread := some (tpAfterPut e) } pos s.pc := by
  have hr : TPRunning x At Ck s pos → TPRunning x At Ck { s with buf := s.buf ++ [e], thread := some (tpAfterPut e) } pos := by
    rintro ⟨t, m, b, h1, h2, h3, h4, h5, h6⟩
    rw [ht] at h1
    cases h1
    refine ⟨_, m, b, rfl, h2, ?_, h4, ?_, ?_⟩
    · cases e <;> simpa [tpPending, tpAfterPut] using h3
    · cases e with
      | elem a c => intro _; exact h3.last_elem rfl
      | err r => rintro (hh | hh) <;> cases hh
    · cases e with
      | elem a c => intro hh; cases hh
      | err r => intro _; exact h3.last_err rfl
  generalize s.pc = q at h
  cases q with
  | idle =>
    rcases h with ⟨h, _⟩ | ⟨h1, h2⟩
    · rw [ht] at h; cases h
    · exact Or.inr ⟨hr h1, h2⟩
  | get =>
    obtain ⟨h1, h2, h3, h4⟩ := h
    exact ⟨h1, h2, h3, hr h4⟩
  | clear1 k =>
    obtain ⟨h1, h2, h3, h4⟩ := h
    exact ⟨⟨_, rfl⟩, h2, h3, cont_stopped h4 (fun m hm => ⟨m, hm⟩) (by rw [ht]; simp) (by rw [ht]; simp)⟩
  | join k =>
    obtain ⟨h1, h2, h3, h4⟩ := h
    exact ⟨⟨_, rfl, by cases e <;> rintro (hh | ⟨e, hh⟩) <;> cases hh⟩, h2, h3,
      cont_stopped h4 (fun m hm => ⟨m, hm⟩) (by rw [ht]; simp) (by rw [ht]; simp)⟩
  | clear2 k => have := h.1; rw [ht] at this; cases this

private theorem running_start {s : TPSys p} {pos : Nat} (hb : s.buf = []) (hat : At s.ps pos) (s' : TPSys p)
    (h1 : s'.thread = some .check) (h2 : s'.stop = false) (h3 : s'.buf = s.buf) (h4 : s'.ps = s.ps) : TPRunning x At Ck s' pos := by
  refine ⟨.check, pos, false, h1, h2, ?_, by rw [h4]; exact hat, fun _ => rfl, by intro hh; cases hh⟩
  rw [h3, hb]
  exact .nil

private theorem sub_ops {ops : List TOp} {op : TOp} {prog : List TOp} {cl : Bool} (hp : prog = op :: ops)
    (h : size = 0 → cl = false ∧ ∀ o, o ∈ prog → o ≠ TOp.start ∧ o ≠ TOp.close) :
    size = 0 → cl = false ∧ ∀ o, o ∈ ops → o ≠ TOp.start ∧ o ≠ TOp.close := by
  intro hs
  obtain ⟨h1, h2⟩ := h hs
  exact ⟨h1, fun o ho => h2 o (by rw [hp]; exact List.mem_cons_of_mem _ ho)⟩

theorem tpGood_step (sim : SimStream p x At Ck) (hidx : IdxStream p x idx At) {s s' : TPSys p} {total : List (Res α ⊕ Int)} (h : TPGood x At Ck idx size total s)
    (hstep : TPStep p size s s') : TPGood x At Ck idx size total s' := by
  cases hstep with
  | check_go ht hs => exact good_producer h (fun pos hp => pc_check_go ht hs hp)
  | check_stop ht hs => exact good_producer h (fun pos hp => pc_check_stop ht hs hp)
  | read ht hn => exact good_producer h (fun pos hp => pc_read sim ht hn hp)
  | put ht hroom => exact good_producer h (fun pos hp => pc_put ht hp)
  | @next_closed ops hpc hprog hsize hcl =>
    obtain ⟨pos, last, mv, sp, rest, h1, h2, h3, h4, h5, h6, h7⟩ := h
    rw [hprog, hcl] at h5
    simp only [idealRun] at h5
    obtain ⟨r', e1, rfl⟩ := option_map_some h5
    refine ⟨pos, last, mv, sp, r', ?_, h2, h3, h4, by rw [← hcl] at e1; exact e1, by simp [← h6], sub_ops hprog h7⟩
    show TPPcOk x At Ck size _ pos s.pc
    rw [hpc] at h1 ⊢
    exact h1
  | @next_start ops hpc hprog hsize hcl hth =>
    obtain ⟨pos, last, mv, sp, rest, h1, h2, h3, h4, h5, h6, h7⟩ := h
    rw [hpc] at h1
    rcases h1 with ⟨_, hb, hat⟩ | ⟨⟨t, m, b, h', _⟩, _⟩
    · exact ⟨pos, last, mv, sp, rest, ⟨hcl, hsize, ⟨ops, hprog⟩, running_start hb (hat hcl) _ rfl rfl rfl rfl⟩, h2, h3, h4, h5, h6, h7⟩
    · rw [hth] at h'; cases h'
  | @next_wait ops t hpc hprog hsize hcl hth =>
    obtain ⟨pos, last, mv, sp, rest, h1, h2, h3, h4, h5, h6, h7⟩ := h
    rw [hpc] at h1
    rcases h1 with ⟨h', _⟩ | ⟨hr, _, _⟩
    · rw [hth] at h'; cases h'
    · exact ⟨pos, last, mv, sp, rest, ⟨hcl, hsize, ⟨ops, hprog⟩, hr⟩, h2, h3, h4, h5, h6, h7⟩
  | @get_elem ops a c es hpc hprog hbuf =>
    obtain ⟨pos, last, mv, sp, rest, h1, h2, h3, h4, h5, h6, h7⟩ := h
    rw [hpc] at h1
    obtain ⟨hcl, hsize, _, t, m, b, q1, q2, q3, q4, q5, q6⟩ := h1
    rw [hbuf] at q3
    cases q3 with
    | elem ha hc hrest =>
      rw [hprog, hcl] at h5
      obtain ⟨r', e1, rfl⟩ := idealRun_next_item h5 ha
      refine ⟨pos + 1, pos + 1, false, sp, r', Or.inr ⟨⟨t, m, b, q1, q2, hrest, q4, q5, q6⟩, hcl, hsize, by simp⟩, h2.item hc rfl rfl, h3, h4, ?_, by simp [← h6], sub_ops hprog h7⟩
      show idealRun x idx (pos + 1) (pos + 1) false s.closed sp ops = some r'
      rw [hcl]; exact e1
  | @get_err r es hpc hbuf =>
    obtain ⟨pos, last, mv, sp, rest, h1, h2, h3, h4, h5, h6, h7⟩ := h
    rw [hpc] at h1
    obtain ⟨hcl, hsize, hprog, t, m, b, q1, q2, q3, q4, q5, q6⟩ := h1
    rw [hbuf, List.cons_append] at q3
    generalize hl : es ++ tpPending t = l at q3
    cases q3 with
    | err hr =>
      obtain ⟨rfl, ht⟩ := List.append_eq_nil_iff.1 hl
      have hte : t = .exited := by
        cases t with
        | check => cases q5 (Or.inl rfl)
        | read => cases q5 (Or.inr rfl)
        | put e => cases ht
        | exited => rfl
      subst hte
      exact ⟨pos, last, mv, sp, rest, ⟨⟨_, q1⟩, rfl, hsize, hcl, hprog, rfl, hr, q4, rfl, Or.inl q1⟩, h2, h3, h4, h5, h6, h7⟩
  | @zero_elem ops a c es hpc hprog hz hbuf =>
    obtain ⟨pos, last, mv, sp, rest, h1, h2, h3, h4, h5, h6, h7⟩ := h
    rw [hpc] at h1
    rcases h1 with ⟨_, hb, _⟩ | ⟨_, _, hs⟩
    · rw [hb] at hbuf; cases hbuf
    · omega
  | @zero_err ops r es t hpc hprog hz hbuf hth =>
    obtain ⟨pos, last, mv, sp, rest, h1, h2, h3, h4, h5, h6, h7⟩ := h
    rw [hpc] at h1
    rcases h1 with ⟨_, hb, _⟩ | ⟨_, _, hs⟩
    · rw [hb] at hbuf; cases hbuf
    · omega
  | @zero_item ops a ps' hpc hprog hz hbuf hn =>
    obtain ⟨pos, last, mv, sp, rest, h1, h2, h3, h4, h5, h6, h7⟩ := h
    have hcl := (h7 hz).1
    rw [hpc] at h1
    rcases h1 with ⟨hth, hb, hat⟩ | ⟨_, _, hs⟩
    · obtain ⟨q1, q2, _⟩ := produce_at sim (hat hcl) hn
      obtain ⟨r1, r2⟩ := streamRes_item q1.symm
      rw [r2] at q2
      obtain ⟨g1, g2⟩ := sim.get q2
      rw [hprog, hcl] at h5
      obtain ⟨r', e1, rfl⟩ := idealRun_next_item h5 r1
      refine ⟨pos + 1, pos + 1, false, sp, r', ?_, h2.item g2 rfl rfl, h3, h4, ?_, by simp [← h6], sub_ops hprog h7⟩
      · show TPPcOk x At Ck size _ (pos + 1) s.pc
        rw [hpc]
        exact Or.inl ⟨hth, hb, fun _ => g1⟩
      · show idealRun x idx (pos + 1) (pos + 1) false s.closed sp ops = some r'
        rw [hcl]; exact e1
    · omega
  | @zero_raise ops r ps' hpc hprog hz hbuf hr hn =>
    obtain ⟨pos, last, mv, sp, rest, h1, h2, h3, h4, h5, h6, h7⟩ := h
    have hcl := (h7 hz).1
    rw [hpc] at h1
    rcases h1 with ⟨hth, hb, hat⟩ | ⟨_, _, hs⟩
    · obtain ⟨q1, q2, _⟩ := produce_at sim (hat hcl) hn
      subst q1
      rw [hprog, hcl] at h5
      obtain ⟨r', e1, rfl⟩ := idealRun_next_err h5 hr
      refine ⟨streamPos x pos, last, mv, sp, r', ?_, h2.notItem hidx hr, h3, h4, ?_, by simp [← h6], sub_ops hprog h7⟩
      · show TPPcOk x At Ck size _ (streamPos x pos) s.pc
        rw [hpc]
        exact Or.inl ⟨hth, hb, fun _ => q2⟩
      · show idealRun x idx (streamPos x pos) last mv s.closed sp ops = some r'
        rw [hcl]; exact e1
    · omega
  | @save ops hpc hprog =>
    obtain ⟨pos, last, mv, sp, rest, h1, h2, h3, h4, h5, h6, h7⟩ := h
    rw [hprog] at h5
    simp only [idealRun] at h5
    split at h5
    · cases h5
    rename_i hmc
    rw [hpc] at h1
    have hat : s.state ≠ none ∨ At s.ps pos := by
      rcases h1 with ⟨_, _, hat⟩ | ⟨_, _, _, hst⟩
      · cases hst : s.state with
        | some c => exact Or.inl (by simp)
        | none =>
          right
          apply hat
          have := (h2.2.1 hst).1
          subst this
          simpa using hmc
      · exact Or.inl hst
    obtain ⟨c1, c2⟩ := h2.state sim hat
    obtain ⟨k1, k2⟩ := saved_snoc h3 h4 c1
    refine ⟨pos, last, false, sp ++ [last], rest, ?_, ?_, k1, k2, h5, h6, sub_ops hprog h7⟩
    · show TPPcOk x At Ck size _ pos s.pc
      rw [hpc]
      rcases h1 with ⟨q1, q2, q3⟩ | ⟨q1, q2, q3, q4⟩
      · exact Or.inl ⟨q1, q2, fun hh => c2 _ (q3 hh)⟩
      · refine Or.inr ⟨?_, q2, q3, by simp⟩
        obtain ⟨t, m, b, a1, a2, a3, a4, a5, a6⟩ := q1
        exact ⟨t, m, b, a1, a2, a3, c2 _ a4, a5, a6⟩
    · refine ⟨?_, (by intro hh; cases hh), h2.2.2⟩
      intro c hc
      cases hc
      exact c1
  | @restore_stop ops k c t hpc hprog hc hth =>
    obtain ⟨pos, last, mv, sp, rest, h1, h2, h3, h4, h5, h6, h7⟩ := h
    rw [hpc] at h1
    rcases h1 with ⟨h', _⟩ | ⟨⟨t', m, b, q1, q2, q3, q4, _⟩, hcl, hsize, hst⟩
    · rw [hth] at h'; cases h'
    · exact ⟨pos, last, mv, sp, rest, ⟨⟨_, hth⟩, rfl, hsize, hcl, ⟨k, ops, hprog, hc⟩, m, q4⟩, h2, h3, h4, h5, h6, h7⟩
  | @restore ops k c ps' hpc hprog hc hth hset =>
    obtain ⟨pos, last, mv, sp, rest, h1, h2, h3, h4, h5, h6, h7⟩ := h
    rw [hpc] at h1
    rcases h1 with ⟨_, hb, hat⟩ | ⟨⟨t', m, b, q1, _⟩, _⟩
    · rw [hprog] at h5
      simp only [idealRun] at h5
      cases hq : sp[k]? with
      | none => rw [hq] at h5; cases h5
      | some q =>
        rw [hq] at h5
        cases hcl : s.closed with
        | true => rw [hcl] at h5; cases h5
        | false =>
          rw [hcl] at h5
          obtain ⟨s2, e1, e2⟩ := sim.set (hat hcl) (h4 k c q hc hq)
          have := ev_unique e1 hset
          cases this
          obtain ⟨g1, g2⟩ := sim.get e2
          refine ⟨q, q, false, sp, rest, ?_, .restored g2 rfl rfl, h3, h4, h5, h6, fun hz => ⟨rfl, (sub_ops hprog h7 hz).2⟩⟩
          show TPPcOk x At Ck size _ q s.pc
          rw [hpc]
          exact Or.inl ⟨hth, hb, fun _ => g1⟩
    · rw [hth] at q1; cases q1
  | @fresh ops k c ps' hpc hprog hc hset =>
    obtain ⟨pos, last, mv, sp, rest, h1, h2, h3, h4, h5, h6, h7⟩ := h
    rw [hprog] at h5
    simp only [idealRun] at h5
    cases hq : sp[k]? with
    | none => rw [hq] at h5; cases h5
    | some q =>
      rw [hq] at h5
      obtain ⟨s2, e1, e2⟩ := sim.set (sim.get sim.init).1 (h4 k c q hc hq)
      have := ev_unique e1 hset
      cases this
      obtain ⟨g1, g2⟩ := sim.get e2
      exact ⟨q, q, false, sp, rest, Or.inl ⟨rfl, rfl, fun _ => g1⟩, .restored g2 rfl rfl, h3, h4, h5, h6, fun hs => ⟨rfl, (sub_ops hprog h7 hs).2⟩⟩
  | @start_closed ops hpc hprog hcl =>
    obtain ⟨pos, last, mv, sp, rest, h1, h2, h3, h4, h5, h6, h7⟩ := h
    rw [hprog, hcl] at h5
    simp only [idealRun] at h5
    obtain ⟨r', e1, rfl⟩ := option_map_some h5
    refine ⟨pos, last, mv, sp, r', ?_, h2, h3, h4, by rw [← hcl] at e1; exact e1, by simp [← h6], sub_ops hprog h7⟩
    show TPPcOk x At Ck size _ pos s.pc
    rw [hpc] at h1 ⊢
    exact h1
  | @start ops hpc hprog hcl hth =>
    obtain ⟨pos, last, mv, sp, rest, h1, h2, h3, h4, h5, h6, h7⟩ := h
    have hsize : 0 < size := by
      rcases Nat.eq_zero_or_pos size with hz | hz
      · exact absurd rfl ((h7 hz).2 .start (by rw [hprog]; simp)).1
      · exact hz
    rw [hpc] at h1
    rcases h1 with ⟨_, hb, hat⟩ | ⟨⟨t', m, b, q1, _⟩, _⟩
    · rw [hprog, hcl] at h5
      simp only [idealRun] at h5
      split at h5
      · cases h5
      rename_i hmv
      have hmv : mv = false := by simpa using hmv
      subst hmv
      refine ⟨pos, last, false, sp, rest, ?_, h2, h3, h4, (congrArg (fun c => idealRun x idx pos last false c sp ops) hcl).trans h5, h6, sub_ops hprog h7⟩
      show TPPcOk x At Ck size _ pos s.pc
      rw [hpc]
      exact Or.inr ⟨running_start hb (hat hcl) _ rfl rfl rfl rfl, hcl, hsize, fun hst => by cases (h2.2.1 hst).1⟩
    · rw [hth] at q1; cases q1
  | @start_again ops t hpc hprog hcl hth =>
    obtain ⟨pos, last, mv, sp, rest, h1, h2, h3, h4, h5, h6, h7⟩ := h
    rw [hprog, hcl] at h5
    simp only [idealRun] at h5
    split at h5
    · cases h5
    rename_i hmv
    have hmv : mv = false := by simpa using hmv
    subst hmv
    refine ⟨pos, last, false, sp, rest, ?_, h2, h3, h4, (congrArg (fun c => idealRun x idx pos last false c sp ops) hcl).trans h5, h6, sub_ops hprog h7⟩
    show TPPcOk x At Ck size _ pos s.pc
    rw [hpc] at h1 ⊢
    exact h1
  | @close_stop ops t hpc hprog hth =>
    obtain ⟨pos, last, mv, sp, rest, h1, h2, h3, h4, h5, h6, h7⟩ := h
    rw [hpc] at h1
    rcases h1 with ⟨h', _⟩ | ⟨⟨t', m, b, q1, q2, q3, q4, _⟩, hcl, hsize, hst⟩
    · rw [hth] at h'; cases h'
    · refine ⟨pos, last, mv, sp, rest, ⟨⟨_, hth⟩, rfl, hsize, rfl, ⟨ops, hprog⟩, m, q4⟩, h2, h3, h4, ?_, h6, by intro hz; omega⟩
      rw [hprog, hcl] at h5
      show idealRun x idx pos last mv true sp s.prog = some rest
      rw [hprog]
      simpa only [idealRun] using h5
  | @close ops hpc hprog hth =>
    obtain ⟨pos, last, mv, sp, rest, h1, h2, h3, h4, h5, h6, h7⟩ := h
    have hz : size ≠ 0 := fun hz => ((h7 hz).2 .close (by rw [hprog]; simp)).2 rfl
    rw [hpc] at h1
    rcases h1 with ⟨_, hb, _⟩ | ⟨⟨t', m, b, q1, _⟩, _⟩
    · rw [hprog] at h5
      simp only [idealRun] at h5
      refine ⟨pos, last, mv, sp, rest, ?_, h2, h3, h4, h5, h6, fun h => absurd h hz⟩
      show TPPcOk x At Ck size _ pos s.pc
      rw [hpc]
      exact Or.inl ⟨hth, hb, by intro hh; cases hh⟩
    · rw [hth] at q1; cases q1
  | @clear1 k e es hpc hbuf =>
    obtain ⟨pos, last, mv, sp, rest, h1, h2, h3, h4, h5, h6, h7⟩ := h
    refine ⟨pos, last, mv, sp, rest, ?_, h2, h3, h4, h5, h6, h7⟩
    show TPPcOk x At Ck size _ pos s.pc
    rw [hpc] at h1 ⊢
    obtain ⟨q1, q2, q3, q4⟩ := h1
    refine ⟨q1, q2, q3, ?_⟩
    cases k with
    | raise r => have := q4.2.2.2.2.2.1; rw [hbuf] at this; cases this
    | restore c => exact q4
    | close => exact q4
    | getIndex c => exact q4
    | setIndex i => exact q4
  | @clear1_end k hpc hbuf =>
    obtain ⟨pos, last, mv, sp, rest, h1, h2, h3, h4, h5, h6, h7⟩ := h
    refine ⟨pos, last, mv, sp, rest, ?_, h2, h3, h4, h5, h6, h7⟩
    rw [hpc] at h1
    obtain ⟨⟨t, q1⟩, q2, q3, q4⟩ := h1
    refine ⟨⟨t, q1, fun _ => hbuf⟩, q2, q3, ?_⟩
    cases k <;> exact q4
  | @join k hpc hth =>
    obtain ⟨pos, last, mv, sp, rest, h1, h2, h3, h4, h5, h6, h7⟩ := h
    refine ⟨pos, last, mv, sp, rest, ?_, h2, h3, h4, h5, h6, h7⟩
    rw [hpc] at h1
    obtain ⟨_, q2, q3, q4⟩ := h1
    refine ⟨rfl, q3, ?_⟩
    cases k with
    | raise r =>
      obtain ⟨a1, a2, a3, a4, a5, a6, a7⟩ := q4
      exact ⟨a1, a2, a3, a4, a5, a6, Or.inr rfl⟩
    | restore c => exact q4
    | close => exact q4
    | getIndex c => exact q4
    | setIndex i => exact q4
  | @clear2 k e es hpc hbuf =>
    obtain ⟨pos, last, mv, sp, rest, h1, h2, h3, h4, h5, h6, h7⟩ := h
    refine ⟨pos, last, mv, sp, rest, ?_, h2, h3, h4, h5, h6, h7⟩
    show TPPcOk x At Ck size _ pos s.pc
    rw [hpc] at h1 ⊢
    obtain ⟨q1, q2, q3⟩ := h1
    refine ⟨q1, q2, ?_⟩
    cases k with
    | raise r => have := q3.2.2.2.2.2.1; rw [hbuf] at this; cases this
    | restore c => exact q3
    | close => exact q3
    | getIndex c => exact q3
    | setIndex i => exact q3
  | @raise r op ops hpc hbuf hprog =>
    obtain ⟨pos, last, mv, sp, rest, h1, h2, h3, h4, h5, h6, h7⟩ := h
    rw [hpc] at h1
    obtain ⟨q1, q2, hcl, ⟨ops', hp'⟩, hr, hni, hat, hb, _⟩ := h1
    rw [hprog] at hp'
    cases hp'
    subst hr
    rw [hprog, hcl] at h5
    obtain ⟨r', e1, rfl⟩ := idealRun_next_err h5 hni
    refine ⟨streamPos x pos, last, mv, sp, r', Or.inl ⟨q1, hbuf, fun _ => hat⟩, h2.notItem hidx hni, h3, h4, ?_, by simp [← h6], sub_ops hprog h7⟩
    show idealRun x idx (streamPos x pos) last mv s.closed sp ops = some r'
    rw [hcl]; exact e1
  | @restored c op ops ps' hpc hbuf hprog hset =>
    obtain ⟨pos, last, mv, sp, rest, h1, h2, h3, h4, h5, h6, h7⟩ := h
    rw [hpc] at h1
    obtain ⟨q1, q2, hcl, ⟨k, ops', hp', hc⟩, m, hat⟩ := h1
    rw [hprog] at hp'
    cases hp'
    rw [hprog, hcl] at h5
    simp only [idealRun] at h5
    cases hq : sp[k]? with
    | none => rw [hq] at h5; cases h5
    | some q =>
      rw [hq] at h5
      obtain ⟨s2, e1, e2⟩ := sim.set hat (h4 k c q hc hq)
      have := ev_unique e1 hset
      cases this
      obtain ⟨g1, g2⟩ := sim.get e2
      refine ⟨q, q, false, sp, rest, Or.inl ⟨q1, hbuf, fun _ => g1⟩, .restored g2 rfl rfl, h3, h4, ?_, h6, sub_ops hprog h7⟩
      show idealRun x idx q q false s.closed sp ops = some rest
      rw [hcl]; exact h5
  | @closed op ops hpc hbuf hprog =>
    obtain ⟨pos, last, mv, sp, rest, h1, h2, h3, h4, h5, h6, h7⟩ := h
    rw [hpc] at h1
    obtain ⟨q1, q2, hcl, ⟨ops', hp'⟩, _⟩ := h1
    rw [hprog] at hp'
    cases hp'
    rw [hprog] at h5
    simp only [idealRun] at h5
    refine ⟨pos, last, mv, sp, rest, Or.inl ⟨q1, hbuf, ?_⟩, h2, h3, h4, ?_, h6, by intro hz; omega⟩
    · intro hh
      have hh : s.closed = false := hh
      rw [hcl] at hh; cases hh
    · show idealRun x idx pos last mv s.closed sp ops = some rest
      rw [hcl]; exact h5
  | @index_known ops i hpc hprog hn =>
    obtain ⟨pos, last, mv, sp, rest, h1, h2, h3, h4, h5, h6, h7⟩ := h
    rw [hprog] at h5
    cases hcl : s.closed with
    | true => rw [hcl] at h5; simp only [idealRun] at h5; cases h5
    | false =>
      rw [hcl] at h5
      simp only [idealRun] at h5
      split at h5
      · rename_i hi
        obtain ⟨r', e1, rfl⟩ := option_map_some h5
        have hl := (h2.2.2 ⟨_, hi⟩).2 i hn
        subst hl
        refine ⟨pos, last, mv, sp, r', ?_, h2, h3, h4, e1, by simp [← h6], fun hz => ⟨rfl, (sub_ops hprog h7 hz).2⟩⟩
        show TPPcOk x At Ck size _ pos s.pc
        rw [hpc] at h1 ⊢
        rcases h1 with ⟨a, b, c⟩ | ⟨a, b⟩
        · exact Or.inl ⟨a, b, fun _ => c hcl⟩
        · exact Or.inr ⟨a, rfl, b.2⟩
      · cases h5
  | @index_stop ops t hpc hprog hn hth =>
    obtain ⟨pos, last, mv, sp, rest, h1, h2, h3, h4, h5, h6, h7⟩ := h
    rw [hpc] at h1
    rcases h1 with ⟨h', _⟩ | ⟨⟨t', m, b, q1, q2, q3, q4, _⟩, hcl, hsize, hst⟩
    · rw [hth] at h'; cases h'
    · obtain ⟨c1, c2⟩ := h2.state sim (Or.inl hst)
      refine ⟨pos, last, mv, sp, rest, ⟨⟨_, hth⟩, rfl, hsize, hcl, hn, ⟨ops, hprog⟩, rfl, m, c2 _ q4⟩, ?_, h3, h4, h5, h6, h7⟩
      refine ⟨?_, (by intro hh; cases hh), h2.2.2⟩
      intro c hc
      cases hc
      exact c1
  | @index ops ps' i hpc hprog hn hth hset hget =>
    obtain ⟨pos, last, mv, sp, rest, h1, h2, h3, h4, h5, h6, h7⟩ := h
    rw [hprog] at h5
    cases hcl : s.closed with
    | true => rw [hcl] at h5; simp only [idealRun] at h5; cases h5
    | false =>
      rw [hcl] at h5
      simp only [idealRun] at h5
      split at h5
      · rename_i hi
        obtain ⟨r', e1, rfl⟩ := option_map_some h5
        rw [hpc] at h1
        rcases h1 with ⟨_, hb, hat⟩ | ⟨⟨t', m, b, q1, _⟩, _⟩
        · obtain ⟨c1, c2⟩ := h2.state sim (Or.inr (hat hcl))
          obtain ⟨s2, f1, f2⟩ := sim.set (c2 _ (hat hcl)) c1
          have := ev_unique f1 hset
          cases this
          have hg := hidx.getIdx f2 hi
          rw [hget] at hg
          cases hg
          have hp := (h2.2.2 ⟨_, hi⟩).1
          refine ⟨pos, last, mv, sp, r', ?_, ?_, h3, h4, e1, by simp [← h6], fun hz => ⟨rfl, (sub_ops hprog h7 hz).2⟩⟩
          · show TPPcOk x At Ck size _ pos s.pc
            rw [hpc]
            exact Or.inl ⟨hth, hb, fun _ => by rw [hp]; exact f2⟩
          · refine ⟨?_, (by intro hh; cases hh), fun _ => ⟨hp, ?_⟩⟩
            · intro c hc
              cases hc
              exact c1
            · intro j hj
              cases hj
              rfl
        · rw [hth] at q1; cases q1
      · cases h5
  | @set_index_stop ops t i hpc hprog hth =>
    obtain ⟨pos, last, mv, sp, rest, h1, h2, h3, h4, h5, h6, h7⟩ := h
    rw [hpc] at h1
    rcases h1 with ⟨h', _⟩ | ⟨⟨t', m, b, q1, q2, q3, q4, _⟩, hcl, hsize, hst⟩
    · rw [hth] at h'; cases h'
    · exact ⟨pos, last, mv, sp, rest, ⟨⟨_, hth⟩, rfl, hsize, hcl, ⟨ops, hprog⟩, m, q4⟩, h2, h3, h4, h5, h6, h7⟩
  | @set_index ops ps' i hpc hprog hth hset =>
    obtain ⟨pos, last, mv, sp, rest, h1, h2, h3, h4, h5, h6, h7⟩ := h
    rw [hprog] at h5
    cases hcl : s.closed with
    | true => rw [hcl] at h5; simp only [idealRun] at h5; cases h5
    | false =>
      rw [hcl] at h5
      simp only [idealRun] at h5
      split at h5
      · rename_i hi
        rw [hpc] at h1
        rcases h1 with ⟨_, hb, hat⟩ | ⟨⟨t', m, b, q1, _⟩, _⟩
        · obtain ⟨s2, f1, f2⟩ := hidx.setIdx (hat hcl) hi
          rw [hset] at f1
          cases f1
          refine ⟨i, i, true, sp, rest, ?_, .moved hi rfl rfl, h3, h4, h5, h6, fun hz => ⟨rfl, (sub_ops hprog h7 hz).2⟩⟩
          show TPPcOk x At Ck size _ i s.pc
          rw [hpc]
          exact Or.inl ⟨hth, hb, fun _ => f2⟩
        · rw [hth] at q1; cases q1
      · cases h5
  | @indexed c op ops ps' i hpc hbuf hprog hset hget =>
    obtain ⟨pos, last, mv, sp, rest, h1, h2, h3, h4, h5, h6, h7⟩ := h
    rw [hpc] at h1
    obtain ⟨q1, q2, hcl, hn, ⟨ops', hp'⟩, hst, m, hat⟩ := h1
    rw [hprog] at hp'
    cases hp'
    rw [hprog, hcl] at h5
    simp only [idealRun] at h5
    split at h5
    · rename_i hi
      obtain ⟨r', e1, rfl⟩ := option_map_some h5
      obtain ⟨s2, f1, f2⟩ := sim.set hat (h2.1 c hst)
      have := ev_unique f1 hset
      cases this
      have hg := hidx.getIdx f2 hi
      rw [hget] at hg
      cases hg
      have hp := (h2.2.2 ⟨_, hi⟩).1
      refine ⟨pos, last, mv, sp, r', Or.inl ⟨q1, hbuf, fun _ => by rw [hp]; exact f2⟩, ⟨h2.1, h2.2.1, fun _ => ⟨hp, ?_⟩⟩, h3, h4, ?_,
        by simp [← h6], sub_ops hprog h7⟩
      · intro j hj
        cases hj
        rfl
      · show idealRun x idx pos last mv s.closed sp ops = some r'
        rw [hcl]; exact e1
    · cases h5
  | @index_set op ops ps' i hpc hbuf hprog hset =>
    obtain ⟨pos, last, mv, sp, rest, h1, h2, h3, h4, h5, h6, h7⟩ := h
    rw [hpc] at h1
    obtain ⟨q1, q2, hcl, ⟨ops', hp'⟩, m, hat⟩ := h1
    rw [hprog] at hp'
    cases hp'
    rw [hprog, hcl] at h5
    simp only [idealRun] at h5
    split at h5
    · rename_i hi
      obtain ⟨s2, f1, f2⟩ := hidx.setIdx hat hi
      rw [hset] at f1
      cases f1
      refine ⟨i, i, true, sp, rest, Or.inl ⟨q1, hbuf, fun _ => f2⟩, .moved hi rfl rfl, h3, h4, ?_, h6, sub_ops hprog h7⟩
      show idealRun x idx i i true s.closed sp ops = some rest
      rw [hcl]; exact h5
    · cases h5

end
end Grain
