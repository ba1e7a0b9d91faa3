import Verif.Testing.Model
import Verif.Iter.PropsCheckpoint
/-
Lemmas on the two loops of `assert_equal_output_after_checkpoint`.
-/
namespace Grain

/-- `n` times: take a checkpoint, read an element. -/
def saveAndRead (n : Nat) : List Op := (List.replicate n [Op.save, Op.next]).flatten

theorem saveAndRead_succ (n : Nat) : saveAndRead (n + 1) = .save :: .next :: saveAndRead n := by
  simp [saveAndRead, List.replicate_succ]

theorem ckCollect_run {it : Iter α} [DecidableEq σ] {specOf : it.C → σ} {F : Nat} :
    ∀ {t : Nat} {s : it.S} {first : Option σ} {cs : List it.C} {vs : List α} {cs' : List it.C} {vs' : List α},
    ckCollect it specOf F t s first cs vs = some (.ok (cs', vs')) →
    ∃ (dcs : List it.C) (dvs : List α), cs' = cs ++ dcs ∧ vs' = vs ++ dvs ∧ dcs.length = dvs.length ∧
      ∀ i, i ≤ dvs.length → ∃ si,
        (∀ saved ops, implRun it F s saved (saveAndRead i ++ ops) =
          (implRun it F si (saved ++ dcs.take i) ops).map (fun r => (dvs.take i).map Res.item ++ r)) ∧
        (∀ c, dcs[i]? = some c → (it.get si).2 = c) ∧
        (i = dvs.length → ∃ s', it.next F (it.get si).1 = some (s', .stop)) := by
  intro t
  induction t with
  | zero => intro s first cs vs cs' vs' h; cases h
  | succ t ih =>
    intro s first cs vs cs' vs' h
    simp only [ckCollect] at h
    split at h
    · cases h
    · cases hn : it.next F (it.get s).1 with
      | none => rw [hn] at h; cases h
      | some p =>
        obtain ⟨s1, r⟩ := p
        rw [hn] at h
        have hid : ∀ saved ops, implRun it F s saved (saveAndRead 0 ++ ops) =
            (implRun it F s (saved ++ []) ops).map (fun r => ([] : List α).map Res.item ++ r) := by
          intro saved ops
          simp [saveAndRead]
        cases r with
        | fail e => cases h
        | stop =>
          cases h
          refine ⟨[], [], by simp, by simp, rfl, ?_⟩
          intro i hi
          have : i = 0 := by simpa using hi
          subst this
          exact ⟨s, hid, (fun c hc => by simp at hc), fun _ => ⟨s1, hn⟩⟩
        | item a =>
          obtain ⟨dcs, dvs, h1, h2, h3, h4⟩ := ih h
          refine ⟨(it.get s).2 :: dcs, a :: dvs, by simp [h1], by simp [h2], by simp [h3], ?_⟩
          intro i hi
          cases i with
          | zero => exact ⟨s, hid, (fun c hc => by simpa using hc), fun hc => by simp at hc⟩
          | succ i =>
            obtain ⟨si, h5, h6, h7⟩ := h4 i (by simpa using hi)
            refine ⟨si, ?_, ?_, ?_⟩
            · intro saved ops
              rw [saveAndRead_succ]
              simp only [List.cons_append, implRun, hn, Option.bind_eq_bind, Option.bind_some]
              rw [h5, List.append_assoc, List.singleton_append, List.take_succ_cons, List.take_succ_cons]
              cases implRun it F si (saved ++ (it.get s).2 :: List.take i dcs) ops <;> rfl
            · intro c hc
              exact h6 c (by simpa using hc)
            · intro hl
              exact h7 (by simpa using hl)

theorem ckDrain_run {it : Iter α} {F : Nat} : ∀ {t : Nat} {s : it.S} {vs : List α},
    ckDrain it F t s = some (.ok vs) → ∀ saved, implRun it F s saved (List.replicate vs.length .next ++ [.next]) =
      some (vs.map Res.item ++ [.stop]) := by
  intro t
  induction t with
  | zero => intro s vs h; cases h
  | succ t ih =>
    intro s vs h saved
    simp only [ckDrain] at h
    cases hn : it.next F s with
    | none => rw [hn] at h; cases h
    | some p =>
      obtain ⟨s1, r⟩ := p
      rw [hn] at h
      cases r with
      | fail e => cases h
      | stop =>
        cases h
        simp [implRun, hn]
      | item a =>
        simp only at h
        cases hd : ckDrain it F t s1 with
        | none => rw [hd] at h; cases h
        | some q =>
          rw [hd] at h
          cases q with
          | error e => cases h
          | ok ws =>
            cases h
            have := ih hd saved
            simp [List.replicate_succ, implRun, hn, this]

theorem ckReplays_all {it : Iter α} [DecidableEq α] {same : it.C → it.C → Bool} {F : Nat} {xs : List α} :
    ∀ {cs : List it.C} {o : Nat}, ckReplays it same F xs o cs = some (.ok ()) →
      ∀ (i : Nat) c, cs[i]? = some c → ckReplay it same F c (xs.drop (o + i)) = some (.ok ()) := by
  intro cs
  induction cs with
  | nil => intro o _ i c hc; cases hc
  | cons c0 cs ih =>
    intro o h i c hc
    simp only [ckReplays] at h
    cases hr : ckReplay it same F c0 (xs.drop o) with
    | none => rw [hr] at h; cases h
    | some q =>
      rw [hr] at h
      cases q with
      | error e => cases h
      | ok u =>
        cases i with
        | zero => simp at hc; subst hc; simpa using hr
        | succ i =>
          have := ih h i c (by simpa using hc)
          rw [← this]; congr 2; omega

theorem ckReplays_of_all {it : Iter α} [DecidableEq α] {same : it.C → it.C → Bool} {F : Nat} {xs : List α} :
    ∀ {cs : List it.C} {o : Nat}, (∀ (i : Nat) c, cs[i]? = some c → ckReplay it same F c (xs.drop (o + i)) = some (.ok ())) →
      ckReplays it same F xs o cs = some (.ok ()) := by
  intro cs
  induction cs with
  | nil => intro o _; rfl
  | cons c cs ih =>
    intro o h
    simp only [ckReplays]
    rw [show ckReplay it same F c (xs.drop o) = some (.ok ()) from h 0 c rfl]
    exact ih (fun i c' hc => by
      have := h (i + 1) c' (by simpa using hc)
      rw [← this]; congr 2; omega)

theorem ckDrain_sim {it : Iter α} {xs : List α} {At : it.S → Nat → Prop} {Ck : it.C → Nat → Prop} {used : Nat → Bool}
    (h : SimWhen used it (xs.map Except.ok) true At Ck) : ∀ (d : Nat) {s : it.S} {n : Nat}, At s n → n + d = xs.length →
    Ev (fun F => ∀ t, d < t → ckDrain it F t s = some (.ok (xs.drop n))) := by
  intro d
  induction d with
  | zero =>
    intro s n hs hn
    obtain ⟨s', h1, _⟩ := h.next_stop (s := s) (by rw [List.length_map, ← hn]; exact hs) rfl
    refine h1.mono ?_
    intro F e t ht
    obtain ⟨u, rfl⟩ : ∃ u, t = u + 1 := ⟨t - 1, by omega⟩
    simp only [ckDrain, e]
    rw [List.drop_eq_nil_of_le (by omega)]
  | succ d ih =>
    intro s n hs hn
    have hlt : n < xs.length := by omega
    have hx : (xs.map (Except.ok (ε := Err)))[n]? = some (.ok xs[n]) := by
      rw [List.getElem?_map, List.getElem?_eq_getElem hlt]; rfl
    obtain ⟨s', h1, h2⟩ := h.next_item hs hx
    refine h1.mono₂ (ih h2 (by omega)) ?_
    intro F e1 e2 t ht
    obtain ⟨u, rfl⟩ : ∃ u, t = u + 1 := ⟨t - 1, by omega⟩
    simp only [ckDrain, e1, toRes, e2 u (by omega)]
    rw [List.drop_eq_getElem_cons hlt]

theorem ckCollect_sim {it : Iter α} [DecidableEq σ] {specOf : it.C → σ} {xs : List α} {At : it.S → Nat → Prop}
    {Ck : it.C → Nat → Prop} {used : Nat → Bool} (h : SimWhen used it (xs.map Except.ok) true At Ck) (sp : σ)
    (hspec : ∀ c m, Ck c m → specOf c = sp) :
    ∀ (d : Nat) {s : it.S} {n : Nat}, At s n → n + d = xs.length →
    ∃ dcs : List it.C, dcs.length = d ∧ (∀ (i : Nat) c, dcs[i]? = some c → Ck c (n + i)) ∧
      Ev (fun F => ∀ t first cs vs, d < t → (first = none ∨ first = some sp) →
        ckCollect it specOf F t s first cs vs = some (.ok (cs ++ dcs, vs ++ xs.drop n))) := by
  intro d
  induction d with
  | zero =>
    intro s n hs hn
    obtain ⟨g1, g2⟩ := h.get hs
    obtain ⟨s', h1, _⟩ := h.next_stop (s := (it.get s).1) (by rw [List.length_map, ← hn]; exact g1) rfl
    refine ⟨[], rfl, (fun i c hc => by simp at hc), h1.mono ?_⟩
    intro F e t first cs vs ht hf
    obtain ⟨u, rfl⟩ : ∃ u, t = u + 1 := ⟨t - 1, by omega⟩
    have hany : first.any (fun p => decide (p ≠ specOf (it.get s).2)) = false := by
      rcases hf with rfl | rfl
      · rfl
      · simp [hspec _ _ g2]
    simp only [ckCollect, hany, e, Bool.false_eq_true, if_false]
    rw [List.drop_eq_nil_of_le (by omega), List.append_nil, List.append_nil]
  | succ d ih =>
    intro s n hs hn
    have hlt : n < xs.length := by omega
    have hx : (xs.map (Except.ok (ε := Err)))[n]? = some (.ok xs[n]) := by
      rw [List.getElem?_map, List.getElem?_eq_getElem hlt]; rfl
    obtain ⟨g1, g2⟩ := h.get hs
    obtain ⟨s', h1, h2⟩ := h.next_item g1 hx
    obtain ⟨dcs, i1, i2, i3⟩ := ih h2 (by omega)
    refine ⟨(it.get s).2 :: dcs, by simp [i1], ?_, h1.mono₂ i3 ?_⟩
    · intro i c hc
      cases i with
      | zero => simp at hc; subst hc; exact g2
      | succ i =>
        have := i2 i c (by simpa using hc)
        rwa [show n + (i + 1) = n + 1 + i by omega]
    · intro F e1 e2 t first cs vs ht hf
      obtain ⟨u, rfl⟩ : ∃ u, t = u + 1 := ⟨t - 1, by omega⟩
      have hany : first.any (fun p => decide (p ≠ specOf (it.get s).2)) = false := by
        rcases hf with rfl | rfl
        · rfl
        · simp [hspec _ _ g2]
      have hfirst : first.getD (specOf (it.get s).2) = sp := by
        rcases hf with rfl | rfl
        · exact hspec _ _ g2
        · rfl
      simp only [ckCollect, hany, e1, toRes, Bool.false_eq_true, if_false]
      rw [e2 u _ _ _ (by omega) (.inr (congrArg some hfirst)), List.append_assoc, List.append_assoc,
        List.drop_eq_getElem_cons hlt]
      rfl

theorem Ev.forall_list {ι : Type} {P : ι → Nat → Prop} : ∀ (l : List ι), (∀ i ∈ l, Ev (P i)) → Ev (fun F => ∀ i ∈ l, P i F) := by
  intro l
  induction l with
  | nil => intro _; exact Ev.of_forall (fun F i hi => by cases hi)
  | cons a l ih =>
    intro h
    refine (h a (List.mem_cons_self ..)).mono₂ (ih (fun i hi => h i (List.mem_cons_of_mem _ hi))) ?_
    intro F h1 h2 i hi
    rcases List.mem_cons.1 hi with rfl | hi
    · exact h1
    · exact h2 i hi

end Grain
