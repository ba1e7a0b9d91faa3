import Verif.Interleave.PropsUnread
import Verif.Cts.Props
/-
Transformations that keep state objects which their input may change: as long as no state is taken after a restart, nothing of
this is seen.
-/
namespace Grain

/-- The call makes the iterator start from a saved state. -/
def Op.isRestart : Op → Bool
  | .restore _ => true
  | .fresh _ => true
  | _ => false

/-- All states are taken before the first restart. -/
def SavesFirst (ops : List Op) : Prop := ops.Pairwise (fun a b => ¬ (a.isRestart = true ∧ b = .save))

/-- Results of a call on two iterators. -/
def Both {A B R : Type} (Q : A → B → Prop) : Option (A × R) → Option (B × R) → Prop
  | none, none => True
  | some (a, r), some (b, q) => r = q ∧ Q a b
  | _, _ => False

/-- `sh` behaves as `it`, except that its states may be different after the first restart. -/
structure SameUntilRestart (it sh : Iter α) (R0 R : it.S → sh.S → Prop) (RC : it.C → sh.C → Prop) : Prop where
  init : R0 it.init sh.init
  next0 : ∀ {s t}, R0 s t → ∀ F, Both R0 (it.next F s) (sh.next F t)
  get0 : ∀ {s t}, R0 s t → R0 (it.get s).1 (sh.get t).1 ∧ RC (it.get s).2 (sh.get t).2
  next : ∀ {s t}, R s t → ∀ F, Both R (it.next F s) (sh.next F t)
  set0 : ∀ {s t c d}, R0 s t → RC c d → ∀ F, Both R (it.set F s c) (sh.set F t d)
  set : ∀ {s t c d}, R s t → RC c d → ∀ F, Both R (it.set F s c) (sh.set F t d)

theorem savesFirst_cons {o : Op} {ops : List Op} (h : SavesFirst (o :: ops)) : SavesFirst ops := (List.pairwise_cons.1 h).2

theorem forall₂_getElem?_some {A B : Type} {Q : A → B → Prop} {as : List A} {bs : List B} (h : List.Forall₂ Q as bs) (k : Nat) :
    (as[k]? = none ∧ bs[k]? = none) ∨ ∃ a b, as[k]? = some a ∧ bs[k]? = some b ∧ Q a b := by
  induction h generalizing k with
  | nil => left; simp
  | cons hab _ ih =>
    cases k with
    | zero => right; exact ⟨_, _, rfl, rfl, hab⟩
    | succ k => simpa using ih k

theorem SameUntilRestart.run_after {it sh : Iter α} {R0 R : it.S → sh.S → Prop} {RC : it.C → sh.C → Prop} (h : SameUntilRestart it sh R0 R RC) (F : Nat) :
    ∀ (ops : List Op) (s : it.S) (t : sh.S) (cs : List it.C) (ds : List sh.C), R s t → List.Forall₂ RC cs ds → (∀ o ∈ ops, o ≠ .save) →
      implRun it F s cs ops = implRun sh F t ds ops := by
  intro ops
  induction ops with
  | nil => intros; rfl
  | cons o ops ih =>
    intro s t cs ds hst hcd hns
    have hns' : ∀ o ∈ ops, o ≠ .save := fun o ho => hns o (List.mem_cons_of_mem _ ho)
    cases o with
    | next =>
      have hb := h.next hst F
      simp only [implRun]
      rcases h1 : it.next F s with _ | ⟨s', r⟩ <;> rcases h2 : sh.next F t with _ | ⟨t', q⟩ <;> rw [h1, h2] at hb
      · rfl
      · exact hb.elim
      · exact hb.elim
      · obtain ⟨rfl, hq⟩ := hb
        simp only [Option.bind_eq_bind, Option.bind_some]
        rw [ih s' t' cs ds hq hcd hns']
    | save => exact absurd rfl (hns _ (List.mem_cons_self ..))
    | restore k =>
      simp only [implRun]
      rcases forall₂_getElem?_some hcd k with ⟨h1, h2⟩ | ⟨c, d, h1, h2, hq⟩
      · rw [h1, h2]; rfl
      · rw [h1, h2]
        have hb := h.set hst hq F
        simp only [Option.bind_eq_bind, Option.bind_some]
        rcases h3 : it.set F s c with _ | ⟨s', _ | e⟩ <;> rcases h4 : sh.set F t d with _ | ⟨t', _ | e'⟩ <;> rw [h3, h4] at hb
        all_goals first
          | rfl
          | exact hb.elim
          | exact ih s' t' cs ds hb.2 hcd hns'
          | exact absurd hb.1 (by simp)
    | fresh k =>
      simp only [implRun]
      rcases forall₂_getElem?_some hcd k with ⟨h1, h2⟩ | ⟨c, d, h1, h2, hq⟩
      · rw [h1, h2]; rfl
      · rw [h1, h2]
        have hb := h.set0 h.init hq F
        simp only [Option.bind_eq_bind, Option.bind_some]
        rcases h3 : it.set F it.init c with _ | ⟨s', _ | e⟩ <;> rcases h4 : sh.set F sh.init d with _ | ⟨t', _ | e'⟩ <;> rw [h3, h4] at hb
        all_goals first
          | rfl
          | exact hb.elim
          | exact ih s' t' cs ds hb.2 hcd hns'
          | exact absurd hb.1 (by simp)

theorem SameUntilRestart.run {it sh : Iter α} {R0 R : it.S → sh.S → Prop} {RC : it.C → sh.C → Prop} (h : SameUntilRestart it sh R0 R RC) (F : Nat) :
    ∀ (ops : List Op) (s : it.S) (t : sh.S) (cs : List it.C) (ds : List sh.C), R0 s t → List.Forall₂ RC cs ds → SavesFirst ops →
      implRun it F s cs ops = implRun sh F t ds ops := by
  intro ops
  induction ops with
  | nil => intros; rfl
  | cons o ops ih =>
    intro s t cs ds hst hcd hsf
    cases o with
    | next =>
      have hb := h.next0 hst F
      simp only [implRun]
      rcases h1 : it.next F s with _ | ⟨s', r⟩ <;> rcases h2 : sh.next F t with _ | ⟨t', q⟩ <;> rw [h1, h2] at hb
      · rfl
      · exact hb.elim
      · exact hb.elim
      · obtain ⟨rfl, hq⟩ := hb
        simp only [Option.bind_eq_bind, Option.bind_some]
        rw [ih s' t' cs ds hq hcd (savesFirst_cons hsf)]
    | save =>
      obtain ⟨g1, g2⟩ := h.get0 hst
      exact ih _ _ _ _ g1 (List.rel_append hcd (List.Forall₂.cons g2 List.Forall₂.nil)) (savesFirst_cons hsf)
    | restore k =>
      have hns : ∀ o ∈ ops, o ≠ .save := fun o ho hc => (List.pairwise_cons.1 hsf).1 o ho ⟨rfl, hc⟩
      simp only [implRun]
      rcases forall₂_getElem?_some hcd k with ⟨h1, h2⟩ | ⟨c, d, h1, h2, hq⟩
      · rw [h1, h2]; rfl
      · rw [h1, h2]
        have hb := h.set0 hst hq F
        simp only [Option.bind_eq_bind, Option.bind_some]
        rcases h3 : it.set F s c with _ | ⟨s', _ | e⟩ <;> rcases h4 : sh.set F t d with _ | ⟨t', _ | e'⟩ <;> rw [h3, h4] at hb
        all_goals first
          | rfl
          | exact hb.elim
          | exact h.run_after F ops s' t' cs ds hb.2 hcd hns
          | exact absurd hb.1 (by simp)
    | fresh k =>
      have hns : ∀ o ∈ ops, o ≠ .save := fun o ho hc => (List.pairwise_cons.1 hsf).1 o ho ⟨rfl, hc⟩
      simp only [implRun]
      rcases forall₂_getElem?_some hcd k with ⟨h1, h2⟩ | ⟨c, d, h1, h2, hq⟩
      · rw [h1, h2]; rfl
      · rw [h1, h2]
        have hb := h.set0 h.init hq F
        simp only [Option.bind_eq_bind, Option.bind_some]
        rcases h3 : it.set F it.init c with _ | ⟨s', _ | e⟩ <;> rcases h4 : sh.set F sh.init d with _ | ⟨t', _ | e'⟩ <;> rw [h3, h4] at hb
        all_goals first
          | rfl
          | exact hb.elim
          | exact h.run_after F ops s' t' cs ds hb.2 hcd hns
          | exact absurd hb.1 (by simp)

/-! ### The transformations over inputs with new iterators only -/

theorem flatMapLoop_tame (p : Iter α) (f : α → Py (List β)) (F : Nat) : ∀ (n : Nat) (s : FlatMapState p.S p.C β),
    flatMapLoop p.tame f F n s = flatMapLoop p f F n s := by
  intro n
  induction n with
  | zero => intro s; rfl
  | succ n ih =>
    intro s
    simp only [flatMapLoop]
    cases s.buf[s.idx]? with
    | some b => rfl
    | none =>
      show (p.next F (p.get s.ps).1).bind _ = (p.next F (p.get s.ps).1).bind _
      congr 1
      funext x
      obtain ⟨ps, q⟩ := x
      cases q with
      | stop => rfl
      | fail e => rfl
      | item a =>
        dsimp only
        cases f a with
        | error e => rfl
        | ok l => exact ih _

theorem flatMapIter_unread {p : Iter α} {as : List α} {g : α → List β} {f : α → Py (List β)} {ended : Bool}
    (hp : ResumesUnread p (as.map Except.ok) ended) (hf : ∀ a ∈ as, f a = .ok (g a)) :
    ResumesUnread (flatMapIter f p) ((as.flatMap g).map Except.ok) ended := by
  obtain ⟨At, Ck, h, hb⟩ := flatMapIter_sim hp.tame hf
  have hu : ∀ s, Unread (flatMapIter f p) s → s = (flatMapIter f p).init := by
    intro s hs
    induction hs with
    | init => rfl
    | get _ ih => exact ih
  refine ⟨At, Ck, { init := h.init, bound := h.bound
                    next_item := fun hs hx => ?_, next_stop := fun hs he => ?_
                    get := h.get, set := fun {s c m} hs hc hm => ?_, ck_bound := fun hc => by simpa using hb hc }⟩
  · obtain ⟨s', g1, g2⟩ := h.next_item hs hx
    exact ⟨s', g1.mono (fun F e => (flatMapLoop_tame p f F F _).symm.trans e), g2⟩
  · obtain ⟨s', g1, g2⟩ := h.next_stop hs he
    exact ⟨s', g1.mono (fun F e => (flatMapLoop_tame p f F F _).symm.trans e), g2⟩
  · cases hu s hs
    obtain ⟨s', g1, g2⟩ := h.set_init hc hm
    refine ⟨s', g1.mono (fun F e => Eq.trans ?_ e), g2⟩
    refine (bind_eq (Iter.tame_set (.get .init) F c.1) (fun a => ?_)).symm
    obtain ⟨ps, _ | e⟩ := a <;> rfl

theorem winFill_tame (p : Iter α) (F : Nat) : ∀ (n : Nat) (s : p.S) (acc : List α), winFill p.tame F n s acc = winFill p F n s acc := by
  intro n
  induction n with
  | zero => intros; rfl
  | succ n ih =>
    intro s acc
    simp only [winFill]
    show (p.next F s).bind _ = (p.next F s).bind _
    congr 1
    funext x
    obtain ⟨ps, q⟩ := x
    cases q with
    | stop => rfl
    | fail e => rfl
    | item a => exact ih _ _

theorem winFillShuffle_tame (shuffle : Nat → List α → Py (List α)) (w : Nat) (p : Iter α) (F : Nat) (s : WinState p.S p.C α) :
    winFillShuffle shuffle w p.tame F s = winFillShuffle shuffle w p F s := bind_eq (winFill_tame p F w s.ps []) (fun _ => rfl)

theorem windowShuffleIter_unread {p : Iter α} {as : List α} {ended : Bool} {shuffle : Nat → List α → Py (List α)}
    {σ : Nat → List α → List α} {w : Nat} (hw : 0 < w) (hp : ResumesUnread p (as.map Except.ok) ended)
    (hσ : ∀ i, i ≤ batchCount as.length w (!ended) → ∀ l, l.length ≤ w → shuffle i l = .ok (σ i l) ∧ (σ i l).length = l.length) :
    ResumesUnread (windowShuffleIter shuffle w p) ((windowStream w (fun i l => (σ i l).reverse) as ended).map Except.ok) ended := by
  obtain ⟨At, Ck, h⟩ := windowShuffleIter_resumes hw hp.tame hσ
  have hu : ∀ s, Unread (windowShuffleIter shuffle w p) s → Unread p s.ps := by
    intro s hs
    induction hs with
    | init => exact .get .init
    | get _ ih => exact ih
  refine ⟨At, Ck, SimUnread.mk' (next := (windowShuffleIter shuffle w p.tame).next) (get := (windowShuffleIter shuffle w p.tame).get)
    (set := (windowShuffleIter shuffle w p.tame).set)
    { init := h.init, bound := h.bound, next_item := h.next_item, next_stop := h.next_stop, get := h.get, set := h.set, ck_bound := h.ck_bound }
    (fun F s => ?_) (fun s => rfl) (fun s hs F c => ?_)⟩
  · dsimp only [windowShuffleIter]
    split
    · split
      · rfl
      · exact bind_eq (winFillShuffle_tame shuffle w p F _) (fun a => by rcases a with ⟨_, _ | _⟩ <;> rfl)
    · rfl
  · refine bind_eq (Iter.tame_set (hu s hs) F c.1) (fun a => ?_)
    obtain ⟨ps, _ | e⟩ := a
    · exact bind_eq (winFillShuffle_tame shuffle w p F _) (fun a => by rcases a with ⟨_, _ | _⟩ <;> rfl)
    · rfl

/-! ### Concat-then-split packing -/

theorem ctsLoop_tame (cfg : CtsCfg τ) (p : Iter (List (CtsVal τ))) (F : Nat) : ∀ (n : Nat) (ps : p.S) (buffer : List (CtsBody τ)) (tokens : List Nat)
    (queue : List (List (CtsCol τ))), ctsLoop cfg p.tame F n ps buffer tokens queue = ctsLoop cfg p F n ps buffer tokens queue := by
  intro n
  induction n with
  | zero => intros; rfl
  | succ n ih =>
    intro ps buffer tokens queue
    simp only [ctsLoop]
    show (p.next F (p.get ps).1).bind _ = (p.next F (p.get ps).1).bind _
    congr 1
    funext x
    obtain ⟨ps, q⟩ := x
    cases q with
    | stop => rfl
    | fail e => rfl
    | item vals =>
      dsimp only
      split
      · cases packBodies cfg [({ vals := vals, slices := emptySlices cfg } : CtsBody τ)] with
        | error e => rfl
        | ok row => exact ih _ _ _ _
      · rcases maybeAdd cfg { vals := vals, slices := emptySlices cfg } buffer tokens with ⟨_ | r, b, t⟩
        · exact ih _ _ _ _
        · rfl

theorem ctsRead_tame (cfg : CtsCfg τ) (p : Iter (List (CtsVal τ))) (F : Nat) (s : CtsState τ p.S p.C) : ctsRead cfg p.tame F s = ctsRead cfg p F s := by
  rcases s with ⟨ps, q, _ | ⟨pc, b⟩, st, ck⟩
  · exact ctsLoop_tame cfg p F F _ _ _ _
  · simp only [ctsRead]
    rcases maybeAdd cfg b [] (cfg.feats.map (fun _ => 0)) with ⟨_ | r, b, t⟩
    · exact ctsLoop_tame cfg p F F _ _ _ _
    · rfl

theorem ctsCheckpoint_tame (cfg : CtsCfg τ) (p : Iter (List (CtsVal τ))) (s : CtsState τ p.S p.C) : ctsCheckpoint cfg p.tame s = ctsCheckpoint cfg p s := by
  rcases s with ⟨ps, q, _ | ⟨pc, b⟩, st, ck⟩ <;> rfl

theorem ctsFinish_tame (cfg : CtsCfg τ) (p : Iter (List (CtsVal τ))) (s : CtsState τ p.S p.C) (l : CtsLoop τ p.S p.C) : ctsFinish cfg p.tame s l = ctsFinish cfg p s l := by
  simp only [ctsFinish]
  rw [show ctsPacked (S := p.tame.S) (C := p.tame.C) cfg l = ctsPacked (S := p.S) (C := p.C) cfg l from rfl]
  cases ctsPacked (S := p.S) (C := p.C) cfg l with
  | error e => rfl
  | ok rows =>
    cases rows with
    | cons row queue => rfl
    | nil => exact congrArg (fun (s : CtsState τ p.S p.C) => (s, if s.stop then Res.stop else Res.fail .runtimeError)) (ctsCheckpoint_tame cfg p _)

theorem ctsNext_tame (cfg : CtsCfg τ) (p : Iter (List (CtsVal τ))) (F : Nat) (s : CtsState τ p.S p.C) : ctsNext cfg p.tame F s = ctsNext cfg p F s := by
  rcases s with ⟨ps, _ | ⟨row, q⟩, rem, _ | _, ck⟩
  · simp only [ctsNext]
    rw [ctsCheckpoint_tame, ctsRead_tame]
    rcases ctsRead cfg p F (ctsCheckpoint cfg p ⟨ps, [], rem, false, ck⟩) with _ | ⟨l, _ | e⟩
    · rfl
    · exact congrArg some (ctsFinish_tame cfg p _ l)
    · rfl
  all_goals rfl

theorem ctsReplay_tame (cfg : CtsCfg τ) (p : Iter (List (CtsVal τ))) (F : Nat) : ∀ (n : Nat) (s : CtsState τ p.S p.C), ctsReplay cfg p.tame F n s = ctsReplay cfg p F n s := by
  intro n
  induction n with
  | zero => intro s; rfl
  | succ n ih =>
    intro s
    simp only [ctsReplay]
    rw [ctsNext_tame]
    rcases ctsNext cfg p F s with _ | ⟨s', _ | _ | _⟩
    · rfl
    · exact ih s'
    · rfl
    · rfl

theorem ctsSet_tame (cfg : CtsCfg τ) (p : Iter (List (CtsVal τ))) (F : Nat) (s : CtsState τ p.S p.C) (hs : Unread p s.parent) (c : CtsCk p.C) :
    ctsSet cfg p.tame F s c = ctsSet cfg p F s c := by
  refine bind_eq (Iter.tame_set hs F c.parent) (fun a => ?_)
  obtain ⟨ps, _ | e⟩ := a
  · dsimp only
    rw [show CtsCk.hasRemainder (C := p.tame.C) c = CtsCk.hasRemainder (C := p.C) c from rfl]
    cases CtsCk.hasRemainder (C := p.C) c with
    | true =>
      refine bind_eq (x := p.next F ps) rfl (fun a => ?_)
      obtain ⟨ps, _ | _ | _⟩ := a
      · exact (ctsReplay_tame cfg p F _ _).trans (congrArg _ (ctsCheckpoint_tame cfg p _))
      · rfl
      · rfl
    | false => exact (ctsReplay_tame cfg p F _ _).trans (congrArg _ (ctsCheckpoint_tame cfg p _))
  · rfl

theorem ctsIter_unread {cfg : CtsCfg τ} {es : List (List (CtsVal τ))} {p : Iter (List (CtsVal τ))} (hp : ResumesUnread p (es.map .ok) true)
    {ys : List (List (CtsCol τ))}
    (hrun : Ev (fun F => implRun (ctsIter cfg p) F (ctsIter cfg p).init [] (List.replicate (ys.length + 1) .next) = some (ys.map .item ++ [.stop]))) :
    ResumesUnread (ctsIter cfg p) (ys.map .ok) true := by
  have hruns : ∀ (F n : Nat) (s : CtsState τ p.S p.C), implRun (ctsIter cfg p.tame) F s [] (List.replicate n .next) =
      implRun (ctsIter cfg p) F s [] (List.replicate n .next) := by
    intro F n
    induction n with
    | zero => intro s; rfl
    | succ n ih =>
      intro s
      rw [List.replicate_succ]
      refine bind_eq (ctsNext_tame cfg p F s) (fun a => ?_)
      exact bind_eq (ih a.1) (fun _ => rfl)
  obtain ⟨At, Ck, h⟩ : Resumes (ctsIter cfg p.tame) (ys.map .ok) true := by
    obtain ⟨pAt, pCk, hp⟩ := hp.tame
    obtain ⟨g1, _⟩ := hp.get hp.init
    obtain ⟨gs, href, rfl⟩ := refills_of_run hp ys.length (0, none) (ctsIter cfg p.tame).init ys (Nat.le_refl _) ⟨Nat.zero_le _, trivial⟩ g1 trivial rfl rfl
      (hrun.mono (fun F e => (hruns F _ _).trans e))
    exact ⟨_, _, cts_sim hp href⟩
  have hu : ∀ s, Unread (ctsIter cfg p) s → Unread p s.parent := by
    intro s hs
    induction hs with
    | init => exact .get .init
    | get _ ih => exact ih
  exact ⟨At, Ck, SimUnread.mk' (next := (ctsIter cfg p.tame).next) (get := (ctsIter cfg p.tame).get) (set := (ctsIter cfg p.tame).set)
    { init := h.init, bound := h.bound, next_item := h.next_item, next_stop := h.next_stop, get := h.get, set := h.set, ck_bound := h.ck_bound }
    (fun F s => ctsNext_tame cfg p F s) (fun s => rfl) (fun s hs F c => ctsSet_tame cfg p F s (hu s hs) c)⟩

theorem bind_map_eq {A B C : Type} {x y : Option A} (hxy : x = y) {f : A → Option B} {f' : A → Option C} {g : C → B}
    (h : ∀ a, f a = (f' a).map g) : x.bind f = Option.map g (y.bind f') := by
  subst hxy
  cases x with
  | none => rfl
  | some a => exact h a

/-- The iterator with other representations of its states. -/
def Iter.recode {D : Type} (p : Iter α) (h : p.C → D) (dset : Nat → p.S → D → Option (p.S × Option Err)) : Iter α where
  S := p.S
  C := D
  init := p.init
  next := p.next
  get s := ((p.get s).1, h (p.get s).2)
  set := dset
  getIdx := p.getIdx
  setIdx := p.setIdx

def CtsState.mapC (h : C → D) (s : CtsState τ S C) : CtsState τ S D :=
  ⟨s.parent, s.queue, s.rem.map (fun x => (h x.1, x.2)), s.stop, ⟨h s.ck.parent, s.ck.slices, s.ck.count⟩⟩

def CtsLoop.mapC (h : C → D) (l : CtsLoop τ S C) : CtsLoop τ S D := ⟨l.parent, l.rem.map (fun x => (h x.1, x.2)), l.buffer, l.queue, l.stop⟩

section
variable {τ D : Type} (cfg : CtsCfg τ) (p : Iter (List (CtsVal τ))) (h : p.C → D) (dset : Nat → p.S → D → Option (p.S × Option Err)) (F : Nat)

theorem ctsLoop_recode : ∀ (n : Nat) (ps : p.S) (buffer : List (CtsBody τ)) (tokens : List Nat) (queue : List (List (CtsCol τ))),
    ctsLoop cfg (p.recode h dset) F n ps buffer tokens queue = (ctsLoop cfg p F n ps buffer tokens queue).map (fun x => (x.1.mapC h, x.2)) := by
  intro n
  induction n with
  | zero => intros; rfl
  | succ n ih =>
    intro ps buffer tokens queue
    simp only [ctsLoop]
    refine bind_map_eq (x := p.next F (p.get ps).1) rfl (fun x => ?_)
    obtain ⟨ps, q⟩ := x
    cases q with
    | stop => rfl
    | fail e => rfl
    | item vals =>
      dsimp only
      cases (!cfg.splitFull && fullLength cfg ({ vals := vals, slices := emptySlices cfg } : CtsBody τ)) with
      | true =>
        simp only [if_true]
        cases packBodies cfg [({ vals := vals, slices := emptySlices cfg } : CtsBody τ)] with
        | error e => rfl
        | ok row => exact ih _ _ _ _
      | false =>
        simp only [Bool.false_eq_true, if_false]
        rcases maybeAdd cfg { vals := vals, slices := emptySlices cfg } buffer tokens with ⟨_ | r, b, t⟩
        · exact ih _ _ _ _
        · rfl

theorem ctsRead_recode (s : CtsState τ p.S p.C) : ctsRead cfg (p.recode h dset) F (s.mapC h) = (ctsRead cfg p F s).map (fun x => (x.1.mapC h, x.2)) := by
  rcases s with ⟨ps, q, _ | ⟨pc, b⟩, st, ck⟩
  · exact ctsLoop_recode cfg p h dset F F _ _ _ _
  · simp only [ctsRead, CtsState.mapC, Option.map_some]
    rcases maybeAdd cfg b [] (cfg.feats.map (fun _ => 0)) with ⟨_ | r, b, t⟩
    · exact ctsLoop_recode cfg p h dset F F _ _ _ _
    · rfl

theorem ctsCheckpoint_recode (s : CtsState τ p.S p.C) : ctsCheckpoint cfg (p.recode h dset) (s.mapC h) = (ctsCheckpoint cfg p s).mapC h := by
  rcases s with ⟨ps, q, _ | ⟨pc, b⟩, st, ck⟩ <;> rfl

theorem ctsFinish_recode (s : CtsState τ p.S p.C) (l : CtsLoop τ p.S p.C) :
    ctsFinish cfg (p.recode h dset) (s.mapC h) (l.mapC h) = ((ctsFinish cfg p s l).1.mapC h, (ctsFinish cfg p s l).2) := by
  simp only [ctsFinish]
  rw [show ctsPacked (S := (p.recode h dset).S) (C := (p.recode h dset).C) cfg (l.mapC h) = ctsPacked (S := p.S) (C := p.C) cfg l from rfl]
  cases ctsPacked (S := p.S) (C := p.C) cfg l with
  | error e => rfl
  | ok rows =>
    cases rows with
    | cons row queue => rfl
    | nil =>
      exact congrArg (fun (s : CtsState τ p.S D) => (s, if s.stop then Res.stop else Res.fail .runtimeError)) (ctsCheckpoint_recode cfg p h dset ⟨l.parent, l.queue, l.rem, l.stop, s.ck⟩)

/-- The end of `ctsNext`. -/
def ctsTail (s : CtsState τ p.S p.C) : Option (CtsLoop τ p.S p.C × Option Err) → Option (CtsState τ p.S p.C × Res (List (CtsCol τ)))
  | none => none
  | some (l, some e) => some ({ s with parent := l.parent, rem := l.rem, queue := l.queue }, .fail e)
  | some (l, none) => some (ctsFinish cfg p s l)

theorem ctsNext_tail (ps : p.S) (rem : Option (p.C × CtsBody τ)) (ck : CtsCk p.C) : ctsNext cfg p F ⟨ps, [], rem, false, ck⟩ =
    ctsTail cfg p (ctsCheckpoint cfg p ⟨ps, [], rem, false, ck⟩) (ctsRead cfg p F (ctsCheckpoint cfg p ⟨ps, [], rem, false, ck⟩)) := by
  simp only [ctsNext, Bool.false_eq_true, if_false]
  rcases ctsRead cfg p F (ctsCheckpoint cfg p ⟨ps, [], rem, false, ck⟩) with _ | ⟨l, _ | e⟩ <;> rfl

theorem ctsTail_recode (s : CtsState τ p.S p.C) : ∀ x, ctsTail cfg (p.recode h dset) (s.mapC h) (x.map (fun y => (y.1.mapC h, y.2))) =
    (ctsTail cfg p s x).map (fun x => (x.1.mapC h, x.2))
  | none => rfl
  | some (_, some _) => rfl
  | some (l, none) => congrArg some (ctsFinish_recode cfg p h dset s l)

theorem ctsNext_recode (s : CtsState τ p.S p.C) : ctsNext cfg (p.recode h dset) F (s.mapC h) = (ctsNext cfg p F s).map (fun x => (x.1.mapC h, x.2)) := by
  rcases s with ⟨ps, _ | ⟨row, q⟩, rem, _ | _, ck⟩
  · have h1 := ctsCheckpoint_recode cfg p h dset ⟨ps, [], rem, false, ck⟩
    have h2 := ctsRead_recode cfg p h dset F (ctsCheckpoint cfg p ⟨ps, [], rem, false, ck⟩)
    have h3 := ctsNext_tail cfg p F ps rem ck
    refine Eq.trans (ctsNext_tail cfg (p.recode h dset) F ps (rem.map (fun (x : p.C × CtsBody τ) => (h x.1, x.2))) ⟨h ck.parent, ck.slices, ck.count⟩) ?_
    refine Eq.trans (congrArg (fun c => ctsTail cfg (p.recode h dset) c (ctsRead cfg (p.recode h dset) F c)) h1) ?_
    refine Eq.trans (congrArg (ctsTail cfg (p.recode h dset) _) h2) ?_
    exact (ctsTail_recode cfg p h dset _ _).trans (congrArg _ h3.symm)
  all_goals rfl

theorem ctsReplay_recode : ∀ (n : Nat) (s : CtsState τ p.S p.C),
    ctsReplay cfg (p.recode h dset) F n (s.mapC h) = (ctsReplay cfg p F n s).map (fun x => (x.1.mapC h, x.2)) := by
  intro n
  induction n with
  | zero => intro s; rfl
  | succ n ih =>
    intro s
    rw [ctsReplay.eq_def, ctsReplay.eq_def]
    dsimp only
    rw [ctsNext_recode]
    rcases ctsNext cfg p F s with _ | ⟨s', _ | _ | _⟩
    · rfl
    · exact ih s'
    · rfl
    · rfl

theorem ctsSet_recode (s : CtsState τ p.S p.C) (c : CtsCk p.C) (hset : dset F s.parent (h c.parent) = p.set F s.parent c.parent) :
    ctsSet cfg (p.recode h dset) F (s.mapC h) ⟨h c.parent, c.slices, c.count⟩ = (ctsSet cfg p F s c).map (fun x => (x.1.mapC h, x.2)) := by
  refine bind_map_eq hset (fun a => ?_)
  obtain ⟨ps, _ | e⟩ := a
  · dsimp only
    rw [show CtsCk.hasRemainder (C := (p.recode h dset).C) ⟨h c.parent, c.slices, c.count⟩ = CtsCk.hasRemainder (C := p.C) c from rfl]
    cases CtsCk.hasRemainder (C := p.C) c with
    | true =>
      refine bind_map_eq (x := p.next F ps) rfl (fun a => ?_)
      obtain ⟨ps, vals | _ | _⟩ := a
      · exact (congrArg (ctsReplay cfg (p.recode h dset) F c.count) (ctsCheckpoint_recode cfg p h dset ⟨ps, [], some (c.parent, ⟨vals, c.slices⟩), false, s.ck⟩)).trans (ctsReplay_recode cfg p h dset F c.count _)
      · rfl
      · rfl
    | false =>
      exact (congrArg (ctsReplay cfg (p.recode h dset) F c.count) (ctsCheckpoint_recode cfg p h dset ⟨ps, [], none, false, s.ck⟩)).trans (ctsReplay_recode cfg p h dset F c.count _)
  · rfl

end

/-! ### The models with shared state objects -/

theorem Both.map {A B R : Type} {Q : A → B → Prop} (g : A → B) (hQ : ∀ a, Q a (g a)) {x : Option (A × R)} {y : Option (B × R)}
    (h : y = x.map (fun y => (g y.1, y.2))) : Both Q x y := by
  subst h
  rcases x with _ | ⟨a, r⟩
  · trivial
  · exact ⟨rfl, hQ a⟩

theorem Both.map' {A B R : Type} {Q : A → B → Prop} (g : B → A) (hQ : ∀ b, Q (g b) b) {x : Option (B × R)} {y : Option (A × R)}
    (h : y = x.map (fun y => (g y.1, y.2))) : Both Q y x := by
  subst h
  rcases x with _ | ⟨a, r⟩
  · trivial
  · exact ⟨rfl, hQ a⟩

theorem flatMapShared_same (f : α → Py (List β)) (p : Iter α) (look : p.S → p.C → p.C) :
    SameUntilRestart (flatMapIter f p) (flatMapShared f p look) (fun s t => t = (s, false)) (fun s t => t.1 = s) (· = ·) where
  init := rfl
  next0 := by
    rintro s t rfl F
    show Both _ _ (((flatMapIter f p).next F s).bind _)
    rcases (flatMapIter f p).next F s with _ | ⟨s', r⟩
    · trivial
    · exact ⟨rfl, rfl⟩
  get0 := by rintro s t rfl; exact ⟨rfl, rfl⟩
  next := by
    rintro s t rfl F
    show Both _ _ (((flatMapIter f p).next F t.1).bind _)
    rcases (flatMapIter f p).next F t.1 with _ | ⟨s', r⟩
    · trivial
    · exact ⟨rfl, rfl⟩
  set0 := by
    rintro s t c d rfl rfl F
    show Both _ _ (((flatMapIter f p).set F s c).bind _)
    rcases (flatMapIter f p).set F s c with _ | ⟨s', r⟩
    · trivial
    · exact ⟨rfl, rfl⟩
  set := by
    rintro s t c d rfl rfl F
    show Both _ _ (((flatMapIter f p).set F t.1 c).bind _)
    rcases (flatMapIter f p).set F t.1 c with _ | ⟨s', r⟩
    · trivial
    · exact ⟨rfl, rfl⟩

theorem windowShuffleShared_same (shuffle : Nat → List α → Py (List α)) (w : Nat) (p : Iter α) (look : p.S → p.C → p.C) :
    SameUntilRestart (windowShuffleIter shuffle w p) (windowShuffleShared shuffle w p look) (fun s t => t = (s, false)) (fun s t => t.1 = s) (· = ·) where
  init := rfl
  next0 := by
    rintro s t rfl F
    show Both _ _ (((windowShuffleIter shuffle w p).next F s).bind _)
    rcases (windowShuffleIter shuffle w p).next F s with _ | ⟨s', r⟩
    · trivial
    · exact ⟨rfl, rfl⟩
  get0 := by rintro s t rfl; exact ⟨rfl, rfl⟩
  next := by
    rintro s t rfl F
    show Both _ _ (((windowShuffleIter shuffle w p).next F t.1).bind _)
    rcases (windowShuffleIter shuffle w p).next F t.1 with _ | ⟨s', r⟩
    · trivial
    · exact ⟨rfl, rfl⟩
  set0 := by
    rintro s t c d rfl rfl F
    show Both _ _ (((windowShuffleIter shuffle w p).set F s c).bind _)
    rcases (windowShuffleIter shuffle w p).set F s c with _ | ⟨s', r⟩
    · trivial
    · exact ⟨rfl, rfl⟩
  set := by
    rintro s t c d rfl rfl F
    show Both _ _ (((windowShuffleIter shuffle w p).set F t.1 c).bind _)
    rcases (windowShuffleIter shuffle w p).set F t.1 c with _ | ⟨s', r⟩
    · trivial
    · exact ⟨rfl, rfl⟩

theorem ctsShared_same (cfg : CtsCfg τ) (p : Iter (List (CtsVal τ))) (look : p.S → p.C → p.C) :
    SameUntilRestart (ctsIter cfg p) (ctsShared cfg p look) (fun s t => t = CtsState.mapC (fun c => (c, false)) s)
      (fun s t => s = CtsState.mapC (C := p.C × Bool) Prod.fst t) (· = ·) where
  init := rfl
  next0 := by
    rintro s t rfl F
    have h := ctsNext_recode cfg p (fun c => (c, false)) (fun F s c => p.set F s c.1) F s
    exact Both.map (Q := fun s t => t = CtsState.mapC (C := p.C) (D := p.C × Bool) (fun c => (c, false)) s) (CtsState.mapC (C := p.C) (D := p.C × Bool) (fun c => (c, false))) (fun _ => rfl) h
  get0 := by rintro s t rfl; exact ⟨rfl, rfl⟩
  next := by
    rintro s t rfl F
    have h := ctsNext_recode cfg p.tagged (fun c => c.1) (fun F s c => p.set F s c) F t
    exact Both.map' (CtsState.mapC (C := p.C × Bool) (D := p.C) Prod.fst) (fun _ => rfl) h
  set0 := by
    rintro s t c d rfl rfl F
    have h := ctsSet_recode cfg p.tagged (fun c => c.1) (fun F s c => p.set F s c) F (CtsState.mapC (fun c => (c, false)) s) ⟨(c.parent, true), c.slices, c.count⟩ rfl
    have hs : CtsState.mapC (C := p.C × Bool) Prod.fst (CtsState.mapC (fun c => (c, false)) s) = s := by
      rcases s with ⟨ps, q, _ | ⟨pc, b⟩, st, ck⟩ <;> rfl
    exact Both.map' (CtsState.mapC (C := p.C × Bool) (D := p.C) Prod.fst) (fun _ => rfl) ((congrArg (fun s => ctsSet cfg p F s c) hs.symm).trans h)
  set := by
    rintro s t c d rfl rfl F
    have h := ctsSet_recode cfg p.tagged (fun c => c.1) (fun F s c => p.set F s c) F t ⟨(c.parent, true), c.slices, c.count⟩ rfl
    exact Both.map' (CtsState.mapC (C := p.C × Bool) (D := p.C) Prod.fst) (fun _ => rfl) h

end Grain
