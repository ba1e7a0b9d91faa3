import Verif.Cts.Model
/-
Concat-then-split as a function of positions in the input, and the simulation of the iterator by it.
-/
namespace Grain

variable {τ : Type}

/-! ### Slices that went through JSON -/

def CtsSlice.norm (s : CtsSlice) : CtsSlice := { s with isList := false }
def normSl (o : Option CtsSlice) : Option CtsSlice := o.map CtsSlice.norm
def CtsBody.norm (b : CtsBody τ) : CtsBody τ := { b with slices := b.slices.map normSl }

/-- The sentinel, or a slice with a start of at least 0. -/
def SlOk (o : Option CtsSlice) : Prop := ∀ s, o = some s → s = emptySlice ∨ 0 ≤ s.start

theorem SlOk.norm_empty {s : CtsSlice} (h : SlOk (some s)) : s.norm = emptySlice ↔ s = emptySlice := by
  constructor
  · intro hn
    rcases h s rfl with h | h
    · exact h
    · have : s.norm.start = emptySlice.start := by rw [hn]
      simp [CtsSlice.norm, emptySlice] at this
      omega
  · rintro rfl; rfl

theorem SlOk.norm {o : Option CtsSlice} (h : SlOk o) : SlOk (normSl o) := by
  intro s hs
  cases o with
  | none => cases hs
  | some t =>
    simp only [normSl, Option.map_some, Option.some.injEq] at hs
    subst hs
    rcases h t rfl with h | h
    · left; rw [h]; rfl
    · right; exact h

theorem sliceVal_norm (v : CtsVal τ) {o : Option CtsSlice} (h : SlOk o) : sliceVal v (normSl o) = sliceVal v o := by
  cases o with
  | none => rfl
  | some s =>
    have hn := h.norm_empty
    simp only [sliceVal, normSl, Option.map_some]
    by_cases he : s = emptySlice
    · rw [if_pos (hn.2 he), if_pos he]
    · rw [if_neg (fun h => he (hn.1 h)), if_neg he]
      rfl

theorem cur_norm {b : CtsBody τ} (h : ∀ o ∈ b.slices, SlOk o) : b.norm.cur = b.cur := by
  unfold CtsBody.cur CtsBody.norm
  simp only []
  generalize b.vals = vs at *
  generalize b.slices = sl at *
  induction sl generalizing vs with
  | nil => simp
  | cons o sl ih =>
    cases vs with
    | nil => simp
    | cons v vs =>
      simp only [List.map_cons, List.zipWith_cons_cons]
      rw [sliceVal_norm v (h o (by simp)), ih vs (fun o ho => h o (by simp [ho]))]

theorem splitOne_norm (v : CtsVal τ) {o : Option CtsSlice} (h : SlOk o) (p : Option Int) : splitOne v (normSl o) p = splitOne v o p := by
  cases p with
  | none => rfl
  | some p =>
    cases o with
    | none => rfl
    | some s =>
      have hn := h.norm_empty
      simp only [splitOne, normSl, Option.map_some]
      by_cases he : s = emptySlice
      · simp [he, CtsSlice.norm, emptySlice]
      · have : ¬ s.norm = emptySlice := fun h => he (hn.1 h)
        simp only [ne_eq, he, not_false_eq_true, this, if_true]
        rfl

theorem splitPoint_norm (f : CtsFeat τ) (c : List τ) {o : Option CtsSlice} (h : SlOk o) (t : Nat) :
    splitPoint f c (normSl o) t = splitPoint f c o t := by
  cases o with
  | none => rfl
  | some s =>
    have hn := h.norm_empty
    simp only [splitPoint, normSl, Option.map_some]
    by_cases he : s = emptySlice
    · simp [he, CtsSlice.norm, emptySlice]
    · have : ¬ s.norm = emptySlice := fun h => he (hn.1 h)
      simp only [he, this, if_false]
      rfl

theorem normSl_splitOne (v : CtsVal τ) (o : Option CtsSlice) (p : Option Int) :
    normSl (splitOne v o p).1 = (splitOne v o p).1 ∧ normSl (splitOne v o p).2 = (splitOne v o p).2 := by
  cases p with
  | none => exact ⟨rfl, rfl⟩
  | some p => exact ⟨rfl, rfl⟩

theorem map_zip_slices_norm {A B : Type} (f : A × Option CtsSlice → B) (hf : ∀ a o, SlOk o → f (a, normSl o) = f (a, o)) :
    ∀ (l : List A) (sl : List (Option CtsSlice)), (∀ o ∈ sl, SlOk o) → (l.zip (sl.map normSl)).map f = (l.zip sl).map f := by
  intro l
  induction l with
  | nil => intro sl _; simp
  | cons a l ih =>
    intro sl h
    cases sl with
    | nil => rfl
    | cons o sl =>
      simp only [List.map_cons, List.zip_cons_cons]
      rw [hf a o (h o (by simp)), ih sl (fun o ho => h o (by simp [ho]))]

theorem map_zip_slices_norm' {A B C : Type} (f : A × Option CtsSlice × C → B) (hf : ∀ a o c, SlOk o → f (a, normSl o, c) = f (a, o, c)) :
    ∀ (l : List A) (sl : List (Option CtsSlice)) (cs : List C), (∀ o ∈ sl, SlOk o) →
      (l.zip ((sl.map normSl).zip cs)).map f = (l.zip (sl.zip cs)).map f := by
  intro l
  induction l with
  | nil => intro sl cs _; simp
  | cons a l ih =>
    intro sl cs h
    cases sl with
    | nil => rfl
    | cons o sl =>
      cases cs with
      | nil => rfl
      | cons c cs =>
        simp only [List.map_cons, List.zip_cons_cons]
        rw [hf a o c (h o (by simp)), ih sl cs (fun o ho => h o (by simp [ho]))]

theorem splitBody_norm {b : CtsBody τ} (h : ∀ o ∈ b.slices, SlOk o) (points : List (Option Int)) :
    splitBody b.norm points = ((splitBody b points).1.map CtsBody.norm, (splitBody b points).2.norm) := by
  unfold splitBody
  split
  · rfl
  · have h1 : (b.norm.vals.zip (b.norm.slices.zip points)).map (fun x => splitOne x.1 x.2.1 x.2.2) =
        (b.vals.zip (b.slices.zip points)).map (fun x => splitOne x.1 x.2.1 x.2.2) := by
      simp only [CtsBody.norm]
      exact map_zip_slices_norm' _ (fun v o p ho => splitOne_norm v ho p) _ _ _ h
    simp only [h1, Option.map_some]
    simp only [CtsBody.norm, List.map_map, Prod.mk.injEq, Option.some.injEq, CtsBody.mk.injEq, true_and]
    refine ⟨?_, ?_⟩
    · apply List.map_congr_left
      intro x _
      exact (normSl_splitOne _ _ _).1.symm
    · apply List.map_congr_left
      intro x _
      exact (normSl_splitOne _ _ _).2.symm

theorem maybeAdd_norm (cfg : CtsCfg τ) {b : CtsBody τ} (h : ∀ o ∈ b.slices, SlOk o) (buffer : List (CtsBody τ)) (tokens : List Nat) :
    maybeAdd cfg b.norm (buffer.map CtsBody.norm) tokens =
      ((maybeAdd cfg b buffer tokens).1.map CtsBody.norm, (maybeAdd cfg b buffer tokens).2.1.map CtsBody.norm, (maybeAdd cfg b buffer tokens).2.2) := by
  unfold maybeAdd
  rw [cur_norm h]
  simp only []
  split
  · rfl
  · split
    · have hp : ((cfg.feats.zip (b.cur.zip tokens)).zip b.norm.slices).map (fun x => splitPoint x.1.1 x.1.2.1 x.2 x.1.2.2) =
          ((cfg.feats.zip (b.cur.zip tokens)).zip b.slices).map (fun x => splitPoint x.1.1 x.1.2.1 x.2 x.1.2.2) :=
        map_zip_slices_norm _ (fun a o ho => splitPoint_norm _ _ ho _) _ _ h
      rw [hp, splitBody_norm h]
      cases hs : splitBody b (((cfg.feats.zip (b.cur.zip tokens)).zip b.slices).map (fun x => splitPoint x.1.1 x.1.2.1 x.2 x.1.2.2)) with
      | mk l r => cases l <;> simp
    · simp

theorem packBodies_norm (cfg : CtsCfg τ) {bs : List (CtsBody τ)} (h : ∀ b ∈ bs, ∀ o ∈ b.slices, SlOk o) :
    packBodies cfg (bs.map CtsBody.norm) = packBodies cfg bs := by
  unfold packBodies
  have h1 : (bs.map CtsBody.norm).isEmpty = bs.isEmpty := by cases bs <;> rfl
  rw [h1]
  split
  · rfl
  · congr 1
    funext x
    congr 1
    rw [List.map_map]
    apply List.map_congr_left
    intro b hb
    simp only [Function.comp_apply, cur_norm (h b hb)]

/-! ### Remainders -/

/-- Some slice is not the sentinel. -/
def anySlice (sl : List (Option CtsSlice)) : Bool :=
  sl.any (fun s =>
    match s with
    | none => false
    | some s => decide (s ≠ emptySlice))

/-- No slice is the sentinel. -/
def SlSet (sl : List (Option CtsSlice)) : Prop := ∀ s, some s ∈ sl → 0 ≤ s.start

/-- Reachable remainders: slices are in range, and either none of them is set or all are. -/
def BodyOk (cfg : CtsCfg τ) (b : CtsBody τ) : Prop :=
  (∀ o ∈ b.slices, SlOk o) ∧ (b.slices.map normSl = emptySlices cfg ∨ anySlice b.slices = true ∧ SlSet b.slices)

theorem emptySlices_ok (cfg : CtsCfg τ) : ∀ o ∈ emptySlices cfg, SlOk o := by
  intro o ho s hs
  subst hs
  obtain ⟨f, _, hf⟩ := List.mem_map.1 ho
  split at hf
  · cases hf
  · left; exact (Option.some.inj hf).symm

theorem emptySlices_norm (cfg : CtsCfg τ) : (emptySlices cfg).map normSl = emptySlices cfg := by
  unfold emptySlices
  rw [List.map_map]
  apply List.map_congr_left
  intro f _
  simp only [Function.comp_apply]
  split <;> rfl

theorem anySlice_empty (cfg : CtsCfg τ) : anySlice (emptySlices cfg) = false := by
  unfold anySlice
  rw [List.any_eq_false]
  intro o ho
  obtain ⟨f, _, rfl⟩ := List.mem_map.1 ho
  split
  · simp_all
  · rename_i s hs
    split at hs
    · cases hs
    · cases hs; simp

theorem fresh_ok (cfg : CtsCfg τ) (vals : List (CtsVal τ)) : BodyOk cfg { vals := vals, slices := emptySlices cfg } :=
  ⟨emptySlices_ok cfg, Or.inl (emptySlices_norm cfg)⟩

theorem splitPoint_nonneg {f : CtsFeat τ} {c : List τ} {o : Option CtsSlice} {t : Nat} {p : Int} (h : SlOk o) (hp : splitPoint f c o t = some p) : 0 ≤ p := by
  unfold splitPoint at hp
  split at hp
  · cases hp
  · split at hp
    · cases hp
      cases o with
      | none => simp only []; omega
      | some s =>
        simp only []
        split
        · omega
        · rcases h s rfl with h | h
          · contradiction
          · omega
    · cases hp; omega

theorem splitBody_ok (cfg : CtsCfg τ) {b : CtsBody τ} (h : BodyOk cfg b) {points : List (Option Int)} (hp : ∀ p, some p ∈ points → 0 ≤ p)
    (hlen : points.length ≤ b.vals.length) (hlen' : points.length ≤ b.slices.length) :
    BodyOk cfg (splitBody b points).2 ∧ (splitBody b points).2.vals = b.vals ∧
    (∀ l, (splitBody b points).1 = some l → ∀ o ∈ l.slices, SlOk o) ∧
    ((splitBody b points).1 = none → (splitBody b points).2 = b) ∧
    ((splitBody b points).1 ≠ none → anySlice (splitBody b points).2.slices = true) := by
  unfold splitBody
  split
  · exact ⟨h, rfl, (by intro l hl; cases hl), fun _ => rfl, fun hh => absurd rfl hh⟩
  · rename_i hne
    have hin : ∀ x ∈ b.vals.zip (b.slices.zip points), x.2.1 ∈ b.slices ∧ x.2.2 ∈ points := by
      intro x hx
      have := (List.of_mem_zip (a := x.1) (b := x.2) hx).2
      exact List.of_mem_zip (a := x.2.1) (b := x.2.2) this
    have hone : ∀ x ∈ b.vals.zip (b.slices.zip points), SlOk (splitOne x.1 x.2.1 x.2.2).1 ∧ SlOk (splitOne x.1 x.2.1 x.2.2).2 := by
      rintro ⟨v, o, p⟩ hx
      obtain ⟨ho, hpp⟩ := hin _ hx
      cases p with
      | none => exact ⟨(by intro s hs; cases hs), (by intro s hs; cases hs)⟩
      | some p =>
        have hp0 := hp p hpp
        have hso := h.1 o ho
        simp only [splitOne]
        refine ⟨?_, ?_⟩
        · intro s hs
          cases hs
          right
          cases o with
          | none => simp
          | some s =>
            simp only []
            split
            · rename_i hse
              rcases hso s rfl with h | h
              · exact absurd h hse
              · exact h
            · simp
        · intro s hs
          cases hs
          right
          exact hp0
    have hany : anySlice (((b.vals.zip (b.slices.zip points)).map (fun x => splitOne x.1 x.2.1 x.2.2)).map (·.2)) = true := by
      rw [Bool.not_eq_true, List.all_eq_false] at hne
      obtain ⟨p, hpm, hpn⟩ := hne
      cases p with
      | none => simp at hpn
      | some p =>
        obtain ⟨i, hi⟩ := List.getElem?_of_mem hpm
        have hil := (List.getElem?_eq_some_iff.1 hi).1
        have hz : (b.vals.zip (b.slices.zip points))[i]? = some (b.vals[i]'(by omega), b.slices[i]'(by omega), some p) := by
          rw [List.getElem?_zip_eq_some]
          refine ⟨List.getElem?_eq_getElem _, ?_⟩
          rw [List.getElem?_zip_eq_some]
          exact ⟨List.getElem?_eq_getElem _, hi⟩
        unfold anySlice
        rw [List.any_eq_true]
        have hp0 := hp p hpm
        refine ⟨_, List.mem_map.2 ⟨_, List.mem_map.2 ⟨_, List.mem_of_getElem? hz, rfl⟩, rfl⟩, ?_⟩
        simp only [splitOne, ne_eq, decide_eq_true_eq]
        intro hh
        have := congrArg CtsSlice.start hh
        simp [emptySlice] at this
        omega
    refine ⟨⟨?_, Or.inr ⟨hany, ?_⟩⟩, rfl, ?_, (by intro hh; cases hh), fun _ => hany⟩
    · intro o ho
      simp only [List.map_map, List.mem_map] at ho
      obtain ⟨x, hx, rfl⟩ := ho
      exact (hone x hx).2
    · intro s hs
      simp only [List.map_map, List.mem_map] at hs
      obtain ⟨⟨v, o, p⟩, hx, hxs⟩ := hs
      cases p with
      | none => cases hxs
      | some p =>
        simp only [Function.comp_apply, splitOne, Option.some.injEq] at hxs
        subst hxs
        exact hp p (hin _ hx).2
    · intro l hl
      cases hl
      intro o ho
      simp only [List.map_map, List.mem_map] at ho
      obtain ⟨x, hx, rfl⟩ := ho
      exact (hone x hx).1

theorem maybeAdd_ok (cfg : CtsCfg τ) {b : CtsBody τ} (h : BodyOk cfg b) (buffer : List (CtsBody τ)) (tokens : List Nat)
    (hb : ∀ b ∈ buffer, ∀ o ∈ b.slices, SlOk o) :
    (∀ r, (maybeAdd cfg b buffer tokens).1 = some r → BodyOk cfg r ∧ r.vals = b.vals ∧ (anySlice r.slices = false → r = b)) ∧
    (∀ x ∈ (maybeAdd cfg b buffer tokens).2.1, ∀ o ∈ x.slices, SlOk o) := by
  unfold maybeAdd
  simp only []
  split
  · exact ⟨(by intro r hr; cases hr; exact ⟨h, rfl, fun _ => rfl⟩), hb⟩
  · split
    · have hpts : ∀ p, some p ∈ ((cfg.feats.zip (b.cur.zip tokens)).zip b.slices).map (fun x => splitPoint x.1.1 x.1.2.1 x.2 x.1.2.2) → 0 ≤ p := by
        intro p hp
        obtain ⟨x, hx, hxp⟩ := List.mem_map.1 hp
        exact splitPoint_nonneg (h.1 x.2 (List.of_mem_zip (a := x.1) (b := x.2) hx).2) hxp
      have hl : b.cur.length = min b.vals.length b.slices.length := by simp [CtsBody.cur]
      have key := splitBody_ok cfg h hpts (by simp; omega) (by simp; omega)
      cases hs : splitBody b (((cfg.feats.zip (b.cur.zip tokens)).zip b.slices).map (fun x => splitPoint x.1.1 x.1.2.1 x.2 x.1.2.2)) with
      | mk l r =>
        rw [hs] at key
        cases l with
        | none => exact ⟨(by intro r' hr; cases hr; exact ⟨key.1, key.2.1, fun _ => key.2.2.2.1 rfl⟩), hb⟩
        | some l =>
          refine ⟨(by intro r' hr; cases hr; exact ⟨key.1, key.2.1, fun ha => by rw [key.2.2.2.2 (by simp)] at ha; cases ha⟩), ?_⟩
          intro x hx
          rcases List.mem_append.1 hx with hx | hx
          · exact hb x hx
          · simp at hx; subst hx; exact key.2.2.1 x rfl
    · refine ⟨(by intro r hr; cases hr), ?_⟩
      intro x hx
      rcases List.mem_append.1 hx with hx | hx
      · exact hb x hx
      · simp at hx; subst hx; exact h.1

/-! ### The same code on positions of the input -/

/-- `ctsLoop` on the list of elements that are left, with positions for parent states and checkpoints. -/
def pureLoop (cfg : CtsCfg τ) (ended : Bool) :
    List (List (CtsVal τ)) → Nat → List (CtsBody τ) → List Nat → List (List (CtsCol τ)) → Option (CtsLoop τ Nat Nat)
  | [], q, buffer, _, queue => if ended then some ⟨q, none, buffer, queue, true⟩ else none
  | vals :: es, q, buffer, tokens, queue =>
    let b : CtsBody τ := { vals := vals, slices := emptySlices cfg }
    if !cfg.splitFull && fullLength cfg b then
      match packBodies cfg [b] with
      | .error _ => none
      | .ok row => pureLoop cfg ended es (q + 1) buffer tokens (queue ++ [row])
    else
      match maybeAdd cfg b buffer tokens with
      | (none, buffer, tokens) => pureLoop cfg ended es (q + 1) buffer tokens queue
      | (some r, buffer, _) => some ⟨q + 1, some (q, r), buffer, queue, false⟩

/-- A point between two refills: position of the parent and remainder. -/
abbrev CtsPt (τ : Type) := Nat × Option (Nat × CtsBody τ)

def pureRead (cfg : CtsCfg τ) (ended : Bool) (es : List (List (CtsVal τ))) (pt : CtsPt τ) : Option (CtsLoop τ Nat Nat) :=
  let zeros := cfg.feats.map (fun _ => 0)
  match pt.2 with
  | none => pureLoop cfg ended (es.drop pt.1) pt.1 [] zeros []
  | some (i, b) =>
    match maybeAdd cfg b [] zeros with
    | (none, buffer, tokens) => pureLoop cfg ended (es.drop pt.1) pt.1 buffer tokens []
    | (some r, buffer, _) => some ⟨pt.1, some (i, r), buffer, [], false⟩

/-- The rows a call of `next` on an empty queue produces, the point it leaves, and whether the data has ended. -/
def pureRefill (cfg : CtsCfg τ) (ended : Bool) (es : List (List (CtsVal τ))) (pt : CtsPt τ) : Option (List (List (CtsCol τ)) × CtsPt τ × Bool) :=
  match pureRead cfg ended es pt with
  | none => none
  | some l =>
    if l.buffer.isEmpty then some (l.queue, (l.parent, l.rem), l.stop)
    else
      match packBodies cfg l.buffer with
      | .error _ => none
      | .ok row => some (row :: l.queue, (l.parent, l.rem), l.stop)

/-- From `pt` on, refills produce the groups of rows `gs`. -/
def Refills (cfg : CtsCfg τ) (ended : Bool) (es : List (List (CtsVal τ))) : CtsPt τ → List (List (List (CtsCol τ))) → Prop
  | pt, [] => ended = true → ∃ pt', pureRefill cfg ended es pt = some ([], pt', true)
  | pt, outs :: gs => outs ≠ [] ∧ ∃ pt' st, pureRefill cfg ended es pt = some (outs, pt', st) ∧
      (if st = true then gs = [] else Refills cfg ended es pt' gs)

/-- Reachable points. -/
def PtOk (cfg : CtsCfg τ) (es : List (List (CtsVal τ))) (pt : CtsPt τ) : Prop :=
  pt.1 ≤ es.length ∧
  match pt.2 with
  | none => True
  | some (i, b) => pt.1 = i + 1 ∧ es[i]? = some b.vals ∧ BodyOk cfg b ∧ b.norm = b ∧
      (anySlice b.slices = false → (!cfg.splitFull && fullLength cfg b) = false)

/-- Invariant of the loop. -/
def LoopOk (cfg : CtsCfg τ) (ended : Bool) (es : List (List (CtsVal τ))) (l : CtsLoop τ Nat Nat) : Prop :=
  PtOk cfg es (l.parent, l.rem) ∧ (∀ b ∈ l.buffer, b.norm = b) ∧ (l.stop = true → ended = true ∧ l.parent = es.length ∧ l.rem = none)

theorem fresh_norm (cfg : CtsCfg τ) (vals : List (CtsVal τ)) :
    (CtsBody.mk vals (emptySlices cfg)).norm = ⟨vals, emptySlices cfg⟩ := by
  simp [CtsBody.norm, emptySlices_norm]

theorem norm_ok {cfg : CtsCfg τ} {b : CtsBody τ} (h : BodyOk cfg b) (hn : b.norm = b) (hs : anySlice b.slices = false) :
    b.slices = emptySlices cfg := by
  rcases h.2 with h | h
  · have : b.norm.slices = b.slices := by rw [hn]
    simp only [CtsBody.norm] at this
    rw [← this]; exact h
  · rw [h.1] at hs; cases hs

theorem norm_fix {cfg : CtsCfg τ} {b : CtsBody τ} (h : BodyOk cfg b) (hn : b.norm = b) {buffer : List (CtsBody τ)}
    (hb : ∀ b ∈ buffer, b.norm = b) (tokens : List Nat) :
    (∀ r, (maybeAdd cfg b buffer tokens).1 = some r → r.norm = r) ∧ (∀ x ∈ (maybeAdd cfg b buffer tokens).2.1, x.norm = x) := by
  have h1 := maybeAdd_norm cfg h.1 buffer tokens
  have h2 : buffer.map CtsBody.norm = buffer := by
    conv => rhs; rw [← List.map_id buffer]
    exact List.map_congr_left (fun b hbb => hb b hbb)
  rw [hn, h2] at h1
  refine ⟨?_, ?_⟩
  · intro r hr
    have := congrArg Prod.fst h1
    rw [hr] at this
    simpa using this.symm
  · have := congrArg (fun x => x.2.1) h1
    simp only at this
    intro x hx
    obtain ⟨i, hi⟩ := List.getElem?_of_mem hx
    have h3 := congrArg (fun l => l[i]?) this
    simp only [List.getElem?_map, hi, Option.map_some, Option.some.injEq] at h3
    exact h3.symm

theorem fullLength_vals {cfg : CtsCfg τ} {b : CtsBody τ} (hs : b.slices = emptySlices cfg) :
    b = ⟨b.vals, emptySlices cfg⟩ := by
  cases b; simp_all

/-- Buffers whose bodies are in range. -/
def BufOk (buffer : List (CtsBody τ)) : Prop := ∀ b ∈ buffer, b.norm = b ∧ ∀ o ∈ b.slices, SlOk o

theorem pureLoop_ok (cfg : CtsCfg τ) (ended : Bool) (es : List (List (CtsVal τ))) : ∀ (rest : List (List (CtsVal τ))) (q : Nat)
    (buffer : List (CtsBody τ)) (tokens : List Nat) (queue : List (List (CtsCol τ))) (l : CtsLoop τ Nat Nat),
    es.drop q = rest → q ≤ es.length → BufOk buffer → pureLoop cfg ended rest q buffer tokens queue = some l →
    PtOk cfg es (l.parent, l.rem) ∧ (l.stop = true → ended = true ∧ l.parent = es.length ∧ l.rem = none) := by
  intro rest
  induction rest with
  | nil =>
    intro q buffer tokens queue l hd hq hb h
    simp only [pureLoop] at h
    split at h
    · cases h
      have hq' : es.length ≤ q := by simpa using hd
      exact ⟨⟨hq, trivial⟩, fun _ => ⟨by assumption, by simp; omega, rfl⟩⟩
    · cases h
  | cons vals rest ih =>
    intro q buffer tokens queue l hd hq hb h
    have hlt : q < es.length := by
      have := congrArg List.length hd
      simp at this; omega
    have hget : es[q]? = some vals := by
      have := congrArg (fun l => l[0]?) hd
      simpa using this
    have hd' : es.drop (q + 1) = rest := by
      rw [← List.tail_drop, hd]; rfl
    simp only [pureLoop] at h
    split at h
    · split at h
      · cases h
      · exact ih _ _ _ _ _ hd' hlt hb h
    · rename_i hsf
      have hfo := fresh_ok cfg vals
      have hok := maybeAdd_ok cfg hfo buffer tokens (fun b hbb => (hb b hbb).2)
      have hfx := norm_fix hfo (fresh_norm cfg vals) (fun b hbb => (hb b hbb).1) tokens
      cases hm : maybeAdd cfg ⟨vals, emptySlices cfg⟩ buffer tokens with
      | mk o x =>
        obtain ⟨buf', tok'⟩ := x
        rw [hm] at h hok hfx
        cases o with
        | none => exact ih _ _ _ _ _ hd' hlt (fun b hbb => ⟨hfx.2 b hbb, hok.2 b hbb⟩) h
        | some r =>
          cases h
          obtain ⟨h1, h2, h3⟩ := hok.1 r rfl
          refine ⟨⟨hlt, rfl, by rw [h2]; exact hget, h1, hfx.1 r rfl, fun ha => ?_⟩, by intro hh; cases hh⟩
          rw [h3 ha]
          simpa using hsf

theorem pureRead_ok (cfg : CtsCfg τ) (ended : Bool) (es : List (List (CtsVal τ))) {pt : CtsPt τ} (hpt : PtOk cfg es pt) {l : CtsLoop τ Nat Nat}
    (h : pureRead cfg ended es pt = some l) :
    PtOk cfg es (l.parent, l.rem) ∧ (l.stop = true → ended = true ∧ l.parent = es.length ∧ l.rem = none) := by
  obtain ⟨q, rem⟩ := pt
  unfold pureRead at h
  cases rem with
  | none => exact pureLoop_ok cfg ended es _ _ _ _ _ _ rfl hpt.1 (by intro b hb; cases hb) h
  | some ib =>
    obtain ⟨i, b⟩ := ib
    obtain ⟨hq, rfl, hv, hbo, hbn, hsf⟩ := hpt
    have hok := maybeAdd_ok cfg hbo [] (cfg.feats.map (fun _ => 0)) (by intro b hb; cases hb)
    have hfx := norm_fix hbo hbn (buffer := []) (by intro b hb; cases hb) (cfg.feats.map (fun _ => 0))
    simp only at h
    cases hm : maybeAdd cfg b [] (cfg.feats.map (fun _ => 0)) with
    | mk o x =>
      obtain ⟨buf', tok'⟩ := x
      rw [hm] at h hok hfx
      cases o with
      | none => exact pureLoop_ok cfg ended es _ _ _ _ _ _ rfl hq (fun b hbb => ⟨hfx.2 b hbb, hok.2 b hbb⟩) h
      | some r =>
        cases h
        obtain ⟨h1, h2, h3⟩ := hok.1 r rfl
        refine ⟨⟨hq, rfl, by rw [h2]; exact hv, h1, hfx.1 r rfl, fun ha => ?_⟩, by intro hh; cases hh⟩
        have h4 := h3 ha
        subst h4
        exact hsf ha

theorem pureRefill_ok {cfg : CtsCfg τ} {ended : Bool} {es : List (List (CtsVal τ))} {pt pt' : CtsPt τ} (hpt : PtOk cfg es pt)
    {outs : List (List (CtsCol τ))} {st : Bool} (h : pureRefill cfg ended es pt = some (outs, pt', st)) :
    PtOk cfg es pt' ∧ (st = true → ended = true ∧ pt' = (es.length, none)) := by
  unfold pureRefill at h
  cases hr : pureRead cfg ended es pt with
  | none => rw [hr] at h; cases h
  | some l =>
    rw [hr] at h
    obtain ⟨h1, h2⟩ := pureRead_ok cfg ended es hpt hr
    have key : (l.parent, l.rem) = pt' ∧ l.stop = st := by
      simp only at h
      split at h
      · cases h; exact ⟨rfl, rfl⟩
      · split at h
        · cases h
        · cases h; exact ⟨rfl, rfl⟩
    obtain ⟨rfl, rfl⟩ := key
    refine ⟨h1, fun hst => ?_⟩
    obtain ⟨h3, h4, h5⟩ := h2 hst
    exact ⟨h3, by rw [h4, h5]⟩

/-- Reading an element again and using it as an unsplit remainder is the same. -/
theorem pureRefill_unsplit {cfg : CtsCfg τ} {ended : Bool} {es : List (List (CtsVal τ))} {i : Nat} {b : CtsBody τ}
    (hpt : PtOk cfg es (i + 1, some (i, b))) (hs : anySlice b.slices = false) :
    pureRefill cfg ended es (i, none) = pureRefill cfg ended es (i + 1, some (i, b)) := by
  obtain ⟨hq, _, hv, hbo, hbn, hsf⟩ := hpt
  have hb := fullLength_vals (norm_ok hbo hbn hs)
  have hsf := hsf hs
  have hlt : i < es.length := hq
  have hd : es.drop i = b.vals :: es.drop (i + 1) := by
    rw [List.drop_eq_getElem_cons hlt]
    rw [List.getElem?_eq_getElem hlt] at hv
    rw [Option.some.inj hv]
  have hread : pureRead cfg ended es (i, none) = pureRead cfg ended es (i + 1, some (i, b)) := by
    unfold pureRead
    simp only []
    rw [hd, pureLoop]
    rw [← hb, if_neg (by simp [hsf])]
  unfold pureRefill
  rw [hread]

/-! ### The iterator does what the function on positions does -/

section
variable {cfg : CtsCfg τ} {p : Iter (List (CtsVal τ))} {es : List (List (CtsVal τ))} {ended : Bool}
variable {pAt : p.S → Nat → Prop} {pCk : p.C → Nat → Prop}

/-- Remainder of the iterator and of the function. -/
def RemRel (cfg : CtsCfg τ) (pCk : C → Nat → Prop) : Option (C × CtsBody τ) → Option (Nat × CtsBody τ) → Prop
  | none, none => True
  | some (pc, b), some (i, b') => pCk pc i ∧ b.norm = b' ∧ BodyOk cfg b
  | _, _ => False

def LoopRel (cfg : CtsCfg τ) (pAt : S → Nat → Prop) (pCk : C → Nat → Prop) (l : CtsLoop τ S C) (l' : CtsLoop τ Nat Nat) : Prop :=
  pAt l.parent l'.parent ∧ RemRel cfg pCk l.rem l'.rem ∧ packBodies cfg l.buffer = packBodies cfg l'.buffer ∧ l.buffer.isEmpty = l'.buffer.isEmpty ∧
  l.queue = l'.queue ∧ l.stop = l'.stop

theorem ctsLoop_pure (hp : Sim p (es.map .ok) ended pAt pCk) : ∀ (rest : List (List (CtsVal τ))) (q : Nat) (ps : p.S)
    (buffer : List (CtsBody τ)) (tokens : List Nat) (queue : List (List (CtsCol τ))) (l : CtsLoop τ Nat Nat),
    es.drop q = rest → q ≤ es.length → (∀ b ∈ buffer, ∀ o ∈ b.slices, SlOk o) → pAt ps q →
    pureLoop cfg ended rest q (buffer.map CtsBody.norm) tokens queue = some l →
    ∃ l' k, (∀ F n, k ≤ F → k ≤ n → ctsLoop cfg p F n ps buffer tokens queue = some (l', none)) ∧ LoopRel cfg pAt pCk l' l := by
  intro rest
  induction rest with
  | nil =>
    intro q ps buffer tokens queue l hd hq hb hat h
    have hq' : q = es.length := by
      have : es.length ≤ q := by simpa using hd
      omega
    subst hq'
    simp only [pureLoop] at h
    split at h
    · rename_i hend
      cases h
      obtain ⟨g1, g2⟩ := hp.get hat
      obtain ⟨ps', ⟨k, hk⟩, hat'⟩ := hp.next_stop (by rw [List.length_map]; exact g1) hend
      refine ⟨⟨ps', none, buffer, queue, true⟩, k + 1, ?_, by rw [List.length_map] at hat'; exact hat', trivial, ?_, ?_, rfl, rfl⟩
      · intro F n hF hn
        obtain ⟨n, rfl⟩ : ∃ m, n = m + 1 := ⟨n - 1, by omega⟩
        simp only [ctsLoop, hk F (by omega), Option.bind_eq_bind, Option.bind_some]
      · exact (packBodies_norm cfg hb).symm
      · simp
    · cases h
  | cons vals rest ih =>
    intro q ps buffer tokens queue l hd hq hb hat h
    have hlt : q < es.length := by
      have := congrArg List.length hd
      simp at this; omega
    have hget : (es.map (Except.ok : _ → Py _))[q]? = some (.ok vals) := by
      have := congrArg (fun l => l[0]?) hd
      simp only [List.getElem?_drop, Nat.add_zero, List.getElem?_cons_zero] at this
      simp [this]
    have hd' : es.drop (q + 1) = rest := by
      rw [← List.tail_drop, hd]; rfl
    obtain ⟨g1, g2⟩ := hp.get hat
    obtain ⟨ps', ⟨k, hk⟩, hat'⟩ := hp.next_item g1 hget
    simp only [pureLoop] at h
    split at h
    · rename_i hsf
      cases hpk : packBodies cfg [⟨vals, emptySlices cfg⟩] with
      | error e => rw [hpk] at h; cases h
      | ok row =>
        rw [hpk] at h
        obtain ⟨l', k', hk', hrel⟩ := ih _ ps' _ _ _ _ hd' hlt hb hat' h
        refine ⟨l', k + k' + 1, ?_, hrel⟩
        intro F n hF hn
        obtain ⟨n, rfl⟩ : ∃ m, n = m + 1 := ⟨n - 1, by omega⟩
        simp only [ctsLoop, hk F (by omega), Option.bind_eq_bind, Option.bind_some, toRes, hsf, if_true, hpk]
        exact hk' F n (by omega) (by omega)
    · rename_i hsf
      have hfo := fresh_ok cfg vals
      have hok := maybeAdd_ok cfg hfo buffer tokens hb
      have hnorm := maybeAdd_norm cfg hfo.1 buffer tokens
      rw [fresh_norm] at hnorm
      rw [hnorm] at h
      cases hm : maybeAdd cfg ⟨vals, emptySlices cfg⟩ buffer tokens with
      | mk o x =>
        obtain ⟨buf', tok'⟩ := x
        rw [hm] at h hok
        cases o with
        | none =>
          obtain ⟨l', k', hk', hrel⟩ := ih _ ps' _ _ _ _ hd' hlt hok.2 hat' h
          refine ⟨l', k + k' + 1, ?_, hrel⟩
          intro F n hF hn
          obtain ⟨n, rfl⟩ : ∃ m, n = m + 1 := ⟨n - 1, by omega⟩
          simp only [ctsLoop, hk F (by omega), Option.bind_eq_bind, Option.bind_some, toRes]
          rw [if_neg hsf, hm]
          exact hk' F n (by omega) (by omega)
        | some r =>
          cases h
          obtain ⟨h1, h2, h3⟩ := hok.1 r rfl
          refine ⟨⟨ps', some ((p.get ps).2, r), buf', queue, false⟩, k + 1, ?_, hat', ⟨g2, rfl, h1⟩, (packBodies_norm cfg hok.2).symm, ?_, rfl, rfl⟩
          · intro F n hF hn
            obtain ⟨n, rfl⟩ : ∃ m, n = m + 1 := ⟨n - 1, by omega⟩
            simp only [ctsLoop, hk F (by omega), Option.bind_eq_bind, Option.bind_some, toRes]
            rw [if_neg hsf, hm]
          · simp

theorem ctsRead_pure (hp : Sim p (es.map .ok) ended pAt pCk) {pt : CtsPt τ} (hpt : PtOk cfg es pt) {s : CtsState τ p.S p.C}
    (hat : pAt s.parent pt.1) (hrem : RemRel cfg pCk s.rem pt.2) {l : CtsLoop τ Nat Nat} (h : pureRead cfg ended es pt = some l) :
    ∃ l', Ev (fun F => ctsRead cfg p F s = some (l', none)) ∧ LoopRel cfg pAt pCk l' l := by
  obtain ⟨q, rem⟩ := pt
  unfold pureRead at h
  unfold ctsRead
  cases hs : s.rem with
  | none =>
    rw [hs] at hrem
    cases rem with
    | some ib => cases hrem
    | none =>
      obtain ⟨l', k, hk, hrel⟩ := ctsLoop_pure hp _ q s.parent [] _ _ l rfl hpt.1 (by intro b hb; cases hb) hat h
      exact ⟨l', ⟨k, fun F hF => hk F F hF hF⟩, hrel⟩
  | some cb =>
    obtain ⟨pc, b⟩ := cb
    rw [hs] at hrem
    cases rem with
    | none => cases hrem
    | some ib =>
      obtain ⟨i, b'⟩ := ib
      obtain ⟨hpc, rfl, hbo⟩ := hrem
      have hok := maybeAdd_ok cfg hbo [] (cfg.feats.map (fun _ => 0)) (by intro b hb; cases hb)
      have hnorm := maybeAdd_norm cfg hbo.1 [] (cfg.feats.map (fun _ => 0))
      simp only [List.map_nil] at hnorm
      simp only [hnorm] at h
      cases hm : maybeAdd cfg b [] (cfg.feats.map (fun _ => 0)) with
      | mk o x =>
        obtain ⟨buf', tok'⟩ := x
        rw [hm] at h hok
        cases o with
        | none =>
          obtain ⟨l', k, hk, hrel⟩ := ctsLoop_pure hp _ q s.parent buf' _ _ l rfl hpt.1 hok.2 hat h
          exact ⟨l', ⟨k, fun F hF => by simp only [hm]; exact hk F F hF hF⟩, hrel⟩
        | some r =>
          cases h
          exact ⟨⟨s.parent, some (pc, r), buf', [], false⟩, Ev.of_forall (fun F => by simp only [hm]), hat, ⟨hpc, rfl, (hok.1 r rfl).1⟩,
            (packBodies_norm cfg hok.2).symm, by simp, rfl, rfl⟩

/-- Checkpoint of a point, up to the number of rows to replay. -/
def CkRel (cfg : CtsCfg τ) (pCk : C → Nat → Prop) (c : CtsCk C) : CtsPt τ → Prop
  | (q, none) => pCk c.parent q ∧ c.slices = emptySlices cfg
  | (_, some (i, b)) => pCk c.parent i ∧ c.slices.map normSl = b.slices ∧ ∀ o ∈ c.slices, SlOk o

theorem ctsCheckpoint_rel (hp : Sim p (es.map .ok) ended pAt pCk) {pt : CtsPt τ} {s : CtsState τ p.S p.C} (hat : pAt s.parent pt.1)
    (hrem : RemRel cfg pCk s.rem pt.2) :
    ∃ ps c, ctsCheckpoint cfg p s = { s with parent := ps, ck := c } ∧ pAt ps pt.1 ∧ c.count = 0 ∧ CkRel cfg pCk c pt := by
  obtain ⟨q, rem⟩ := pt
  obtain ⟨g1, g2⟩ := hp.get hat
  unfold ctsCheckpoint
  cases hs : s.rem with
  | none =>
    rw [hs] at hrem
    cases rem with
    | some ib => cases hrem
    | none => exact ⟨_, _, rfl, g1, rfl, g2, rfl⟩
  | some cb =>
    obtain ⟨pc, b⟩ := cb
    rw [hs] at hrem
    cases rem with
    | none => cases hrem
    | some ib =>
      obtain ⟨i, b'⟩ := ib
      obtain ⟨hpc, rfl, hbo⟩ := hrem
      exact ⟨s.parent, _, rfl, hat, rfl, hpc, rfl, hbo.1⟩

/-- A call of `next` on an empty queue. -/
theorem ctsNext_refill (hp : Sim p (es.map .ok) ended pAt pCk) {pt pt' : CtsPt τ} (hpt : PtOk cfg es pt) {s : CtsState τ p.S p.C}
    (hat : pAt s.parent pt.1) (hrem : RemRel cfg pCk s.rem pt.2) (hq : s.queue = []) (hstop : s.stop = false)
    {outs : List (List (CtsCol τ))} {st : Bool} (h : pureRefill cfg ended es pt = some (outs, pt', st)) :
    ∃ s', pAt s'.parent pt'.1 ∧ RemRel cfg pCk s'.rem pt'.2 ∧ s'.stop = st ∧
      match outs with
      | row :: rest => Ev (fun F => ctsNext cfg p F s = some (s', .item row)) ∧ s'.queue = rest ∧ s'.ck.count = 1 ∧ CkRel cfg pCk s'.ck pt
      | [] => st = true → Ev (fun F => ctsNext cfg p F s = some (s', .stop)) ∧ s'.queue = [] ∧ s'.ck.count = 0 ∧ CkRel cfg pCk s'.ck pt' := by
  obtain ⟨sp, sq, sr, ss, sc⟩ := s
  simp only at hq hstop
  subst hq hstop
  obtain ⟨ps, c, hck, hat1, hc0, hcr⟩ := ctsCheckpoint_rel hp hat hrem
  unfold pureRefill at h
  cases hr : pureRead cfg ended es pt with
  | none => rw [hr] at h; cases h
  | some l =>
    rw [hr] at h
    simp only at h
    obtain ⟨l', hl', hat2, hrem2, hpk, hemp, hqueue, hst⟩ := ctsRead_pure hp hpt (s := ⟨ps, [], sr, false, c⟩) hat1 hrem hr
    have hnext : ∀ F, ctsRead cfg p F ⟨ps, [], sr, false, c⟩ = some (l', none) →
        ctsNext cfg p F ⟨sp, [], sr, false, sc⟩ = some (ctsFinish cfg p ⟨ps, [], sr, false, c⟩ l') := by
      intro F hF
      unfold ctsNext
      simp only [Bool.false_eq_true, if_false, hck, hF]
    have hpk' : ctsPacked cfg l' = .ok outs ∧ pt' = (l.parent, l.rem) ∧ st = l.stop := by
      unfold ctsPacked
      rw [hpk, hemp, hqueue]
      split at h
      · rename_i he
        cases h
        rw [if_pos he]; exact ⟨rfl, rfl, rfl⟩
      · rename_i he
        rw [if_neg he]
        split at h
        · cases h
        · rename_i row hrow
          cases h
          rw [hrow]; exact ⟨rfl, rfl, rfl⟩
    obtain ⟨hpacked, rfl, rfl⟩ := hpk'
    cases outs with
    | cons row rest =>
      refine ⟨⟨l'.parent, rest, l'.rem, l'.stop, { c with count := c.count + 1 }⟩, hat2, hrem2, hst,
        hl'.mono (fun F hF => by rw [hnext F hF]; simp only [ctsFinish, hpacked]), rfl, by simp [hc0], ?_⟩
      obtain ⟨q, rem⟩ := pt
      cases rem with
      | none => exact hcr
      | some ib => exact hcr
    | nil =>
      obtain ⟨ps2, c2, hck2, hat3, hc20, hcr2⟩ := ctsCheckpoint_rel hp
        (s := ⟨l'.parent, l'.queue, l'.rem, l'.stop, c⟩) (pt := (l.parent, l.rem)) hat2 hrem2
      refine ⟨⟨ps2, l'.queue, l'.rem, l'.stop, c2⟩, hat3, hrem2, hst, fun hstop => ⟨hl'.mono (fun F hF => ?_), ?_, hc20, hcr2⟩⟩
      · rw [hnext F hF]
        simp only at hck2
        simp only [ctsFinish, hpacked, hck2]
        rw [hst, hstop]
        rfl
      · simp only
        rw [hqueue]
        split at h
        · exact congrArg (fun x => x.1) (Option.some.inj h)
        · split at h
          · cases h
          · have := congrArg (fun x => x.1) (Option.some.inj h)
            cases this

/-! ### Simulation -/

variable {gs : List (List (List (CtsCol τ)))}

/-- The rows up to a point. -/
def CtsCkp (cfg : CtsCfg τ) (ended : Bool) (es : List (List (CtsVal τ))) (gs : List (List (List (CtsCol τ)))) (pCk : C → Nat → Prop) (c : CtsCk C) (n : Nat) : Prop :=
  ∃ (a rest : List (List (List (CtsCol τ)))) (pt : CtsPt τ), gs = a ++ rest ∧ Refills cfg ended es pt rest ∧ PtOk cfg es pt ∧ CkRel cfg pCk c pt ∧
    n = a.flatten.length + c.count ∧ c.count ≤ (rest.headD []).length

/-- Nothing is queued, the next call refills. -/
def CtsIdle (cfg : CtsCfg τ) (ended : Bool) (es : List (List (CtsVal τ))) (gs : List (List (List (CtsCol τ)))) (pAt : S → Nat → Prop) (pCk : C → Nat → Prop)
    (s : CtsState τ S C) (n : Nat) : Prop :=
  ∃ (a rest : List (List (List (CtsCol τ)))) (pt : CtsPt τ), gs = a ++ rest ∧ Refills cfg ended es pt rest ∧ PtOk cfg es pt ∧
    pAt s.parent pt.1 ∧ RemRel cfg pCk s.rem pt.2 ∧ n = a.flatten.length ∧ s.queue = [] ∧ s.stop = false

/-- Some rows are queued, or the data has ended. -/
def CtsMid (cfg : CtsCfg τ) (ended : Bool) (es : List (List (CtsVal τ))) (gs : List (List (List (CtsCol τ)))) (pAt : S → Nat → Prop) (pCk : C → Nat → Prop)
    (s : CtsState τ S C) (n : Nat) : Prop :=
  ∃ (a rest : List (List (List (CtsCol τ)))) (outs : List (List (CtsCol τ))) (pt pt' : CtsPt τ) (st : Bool),
    gs = a ++ outs :: rest ∧ Refills cfg ended es pt (outs :: rest) ∧ PtOk cfg es pt ∧ CkRel cfg pCk s.ck pt ∧
    pureRefill cfg ended es pt = some (outs, pt', st) ∧ pAt s.parent pt'.1 ∧ RemRel cfg pCk s.rem pt'.2 ∧ s.stop = st ∧
    s.queue = outs.drop s.ck.count ∧ s.ck.count ≤ outs.length ∧ n = a.flatten.length + s.ck.count

def CtsAt (cfg : CtsCfg τ) (ended : Bool) (es : List (List (CtsVal τ))) (gs : List (List (List (CtsCol τ)))) (pAt : S → Nat → Prop) (pCk : C → Nat → Prop)
    (s : CtsState τ S C) (n : Nat) : Prop :=
  CtsCkp cfg ended es gs pCk s.ck n ∧
  (CtsIdle cfg ended es gs pAt pCk s n ∨ CtsMid cfg ended es gs pAt pCk s n ∨
    (s.queue = [] ∧ s.stop = true ∧ n = gs.flatten.length ∧ ended = true ∧ ∃ q, pAt s.parent q))

/-- A call of `next` with a queued row. -/
theorem ctsNext_queue {s : CtsState τ p.S p.C} {row : List (CtsCol τ)} {queue : List (List (CtsCol τ))} (hq : s.queue = row :: queue) (F : Nat) :
    ctsNext cfg p F s = some ({ s with queue := queue, ck := { s.ck with count := s.ck.count + 1 } }, .item row) := by
  unfold ctsNext
  rw [hq]

theorem ckRel_count {c : CtsCk C} {pCk : C → Nat → Prop} {pt : CtsPt τ} (h : CkRel cfg pCk c pt) (k : Nat) : CkRel cfg pCk { c with count := k } pt := by
  obtain ⟨q, rem⟩ := pt
  cases rem with
  | none => exact h
  | some ib => exact h

/-- After the last row of a group, the iterator is idle or at the end. -/
theorem CtsMid.next {s : CtsState τ p.S p.C} {n : Nat} (h : CtsMid cfg ended es gs pAt pCk s n) (hq : s.queue = []) :
    (s.stop = true ∧ n = gs.flatten.length ∧ ended = true) ∨ CtsIdle cfg ended es gs pAt pCk s n := by
  obtain ⟨a, rest, outs, pt, pt', st, hgs, href, hpt, hck, hpr, hat, hrem, hst, hqueue, hcount, hn⟩ := h
  have hc : s.ck.count = outs.length := by
    have := congrArg List.length (hq.symm.trans hqueue)
    simp at this
    omega
  obtain ⟨hne, pt2, st2, hpr2, hrest⟩ := href
  rw [hpr] at hpr2
  cases hpr2
  obtain ⟨hok, hend⟩ := pureRefill_ok hpt hpr
  by_cases hs : st = true
  · rw [if_pos hs] at hrest
    left
    refine ⟨by rw [hst, hs], ?_, (hend hs).1⟩
    rw [hn, hgs, hrest, hc]
    simp
  · rw [if_neg hs] at hrest
    right
    refine ⟨a ++ [outs], rest, pt', by simp [hgs], hrest, hok, hat, hrem, by simp [hn, hc], hq, ?_⟩
    rw [hst]; simpa using hs

theorem CtsIdle.item (hp : Sim p (es.map .ok) ended pAt pCk) {s : CtsState τ p.S p.C} {n : Nat} (h : CtsIdle cfg ended es gs pAt pCk s n)
    {row : List (CtsCol τ)} (hrow : gs.flatten[n]? = some row) :
    ∃ s', Ev (fun F => ctsNext cfg p F s = some (s', .item row)) ∧ CtsAt cfg ended es gs pAt pCk s' (n + 1) := by
  obtain ⟨a, rest, pt, hgs, href, hpt, hat, hrem, hn, hq, hst⟩ := h
  cases rest with
  | nil =>
    rw [hgs, hn] at hrow
    simp at hrow
  | cons outs rest =>
    have href0 := href
    obtain ⟨hne, pt', st, hpr, hrest⟩ := href
    obtain ⟨hok, hend⟩ := pureRefill_ok hpt hpr
    cases outs with
    | nil => exact absurd rfl hne
    | cons row' outs =>
      have : row' = row := by
        rw [hgs, hn] at hrow
        simp only [List.flatten_append, List.flatten_cons] at hrow
        rw [List.getElem?_append_right (by omega)] at hrow
        simpa using hrow
      subst this
      obtain ⟨s', hat', hrem', hst', hnext, hqueue, hcount, hck⟩ := ctsNext_refill hp hpt hat hrem hq hst hpr
      refine ⟨s', hnext, ⟨a, (row' :: outs) :: rest, pt, hgs, href0, hpt, hck, by rw [hcount, hn], by rw [hcount]; simp⟩, Or.inr (Or.inl ?_)⟩
      exact ⟨a, rest, row' :: outs, pt, pt', st, hgs, href0, hpt, hck, hpr, hat', hrem', hst', by rw [hqueue, hcount]; rfl, by rw [hcount]; simp, by rw [hcount, hn]⟩

theorem CtsIdle.end (hp : Sim p (es.map .ok) ended pAt pCk) {s : CtsState τ p.S p.C} (h : CtsIdle cfg ended es gs pAt pCk s gs.flatten.length)
    (hend : ended = true) :
    ∃ s', Ev (fun F => ctsNext cfg p F s = some (s', .stop)) ∧ CtsAt cfg ended es gs pAt pCk s' gs.flatten.length := by
  obtain ⟨a, rest, pt, hgs, href, hpt, hat, hrem, hn, hq, hst⟩ := h
  cases rest with
  | cons outs rest =>
    have hne := href.1
    have : 0 < outs.length := List.length_pos_iff.2 hne
    rw [hgs] at hn
    simp only [List.flatten_append, List.flatten_cons, List.length_append] at hn
    omega
  | nil =>
    obtain ⟨pt', hpr⟩ := href hend
    obtain ⟨hok, he⟩ := pureRefill_ok hpt hpr
    obtain ⟨_, rfl⟩ := he rfl
    obtain ⟨s', hat', hrem', hst', hnext⟩ := ctsNext_refill hp hpt hat hrem hq hst hpr
    obtain ⟨hnext, hqueue, hcount, hck⟩ := hnext rfl
    refine ⟨s', hnext, ⟨gs, [], (es.length, none), by simp, ?_, hok, hck, by simp [hcount], by simp [hcount]⟩,
      Or.inr (Or.inr ⟨hqueue, hst', rfl, hend, _, hat'⟩)⟩
    intro _
    refine ⟨(es.length, none), ?_⟩
    simp [pureRefill, pureRead, pureLoop, hend]

theorem ctsAt_item (hp : Sim p (es.map .ok) ended pAt pCk) {s : CtsState τ p.S p.C} {n : Nat} (h : CtsAt cfg ended es gs pAt pCk s n)
    {row : List (CtsCol τ)} (hrow : gs.flatten[n]? = some row) :
    ∃ s', Ev (fun F => ctsNext cfg p F s = some (s', .item row)) ∧ CtsAt cfg ended es gs pAt pCk s' (n + 1) := by
  obtain ⟨_, h | h | h⟩ := h
  · exact h.item hp hrow
  · cases hq : s.queue with
    | nil =>
      rcases h.next hq with ⟨_, hn, _⟩ | h
      · rw [hn] at hrow; simp at hrow
      · exact h.item hp hrow
    | cons row' queue =>
      obtain ⟨a, rest, outs, pt, pt', st, hgs, href, hpt, hck, hpr, hat, hrem, hst, hqueue, hcount, hn⟩ := h
      rw [hq] at hqueue
      have hlt : s.ck.count < outs.length := by
        have := congrArg List.length hqueue
        simp at this
        omega
      rw [List.drop_eq_getElem_cons hlt] at hqueue
      obtain ⟨h1, h2⟩ := List.cons.inj hqueue
      have : row' = row := by
        rw [hgs, hn] at hrow
        simp only [List.flatten_append, List.flatten_cons] at hrow
        rw [List.getElem?_append_right (by omega)] at hrow
        rw [show a.flatten.length + s.ck.count - a.flatten.length = s.ck.count by omega, List.getElem?_append_left hlt, List.getElem?_eq_getElem hlt] at hrow
        rw [h1]; exact Option.some.inj hrow
      subst this
      refine ⟨_, Ev.of_forall (ctsNext_queue hq), ⟨a, outs :: rest, pt, hgs, href, hpt, ckRel_count hck _, by simp only; omega, by simp only [List.headD_cons]; omega⟩,
        Or.inr (Or.inl ⟨a, rest, outs, pt, pt', st, hgs, href, hpt, ckRel_count hck _, hpr, hat, hrem, hst, h2, hlt, by simp only; omega⟩)⟩
  · rw [h.2.2.1] at hrow; simp at hrow

theorem ctsAt_stop (hp : Sim p (es.map .ok) ended pAt pCk) {s : CtsState τ p.S p.C} (h : CtsAt cfg ended es gs pAt pCk s gs.flatten.length)
    (hend : ended = true) :
    ∃ s', Ev (fun F => ctsNext cfg p F s = some (s', .stop)) ∧ CtsAt cfg ended es gs pAt pCk s' gs.flatten.length := by
  have hdone : s.queue = [] → s.stop = true → Ev (fun F => ctsNext cfg p F s = some (s, .stop)) := by
    intro hq hs
    exact Ev.of_forall (fun F => by unfold ctsNext; rw [hq]; simp only [hs, if_true])
  have h0 := h
  obtain ⟨_, h | h | h⟩ := h
  · exact h.end hp hend
  · have hq : s.queue = [] := by
      obtain ⟨a, rest, outs, pt, pt', st, hgs, href, hpt, hck, hpr, hat, hrem, hst, hqueue, hcount, hn⟩ := h
      rw [hqueue, List.drop_eq_nil_iff]
      rw [hgs] at hn
      simp only [List.flatten_append, List.flatten_cons, List.length_append] at hn
      omega
    rcases h.next hq with ⟨hs, _, _⟩ | h
    · exact ⟨s, hdone hq hs, h0⟩
    · exact h.end hp hend
  · exact ⟨s, hdone h.1 h.2.1, h0⟩

theorem ctsAt_bound {s : CtsState τ p.S p.C} {n : Nat} (h : CtsAt cfg ended es gs pAt pCk s n) : n ≤ gs.flatten.length := by
  obtain ⟨⟨a, rest, pt, hgs, _, _, _, hn, hc⟩, _⟩ := h
  cases rest with
  | nil =>
      have h0 : _ = 0 := Nat.le_zero.1 hc
      rw [hgs, hn, h0, List.append_nil]; exact Nat.le_refl _
  | cons o rest => rw [hgs]; simp only [List.headD_cons] at hc; simp only [List.flatten_append, List.flatten_cons, List.length_append]; omega

theorem ctsReplay_at (hp : Sim p (es.map .ok) ended pAt pCk) : ∀ (k : Nat) {s : CtsState τ p.S p.C} {n : Nat}, CtsAt cfg ended es gs pAt pCk s n →
    n + k ≤ gs.flatten.length → ∃ s', Ev (fun F => ctsReplay cfg p F k s = some (s', none)) ∧ CtsAt cfg ended es gs pAt pCk s' (n + k) := by
  intro k
  induction k with
  | zero => intro s n h _; exact ⟨s, Ev.of_forall (fun _ => rfl), h⟩
  | succ k ih =>
    intro s n h hk
    obtain ⟨s1, e1, h1⟩ := ctsAt_item hp h (List.getElem?_eq_getElem (show n < gs.flatten.length by omega))
    obtain ⟨s2, e2, h2⟩ := ih h1 (by omega)
    refine ⟨s2, e1.mono₂ e2 (fun F f1 f2 => ?_), by rw [show n + (k + 1) = n + 1 + k by omega]; exact h2⟩
    simp only [ctsReplay, f1, f2]

theorem anySlice_norm {sl : List (Option CtsSlice)} (h : ∀ o ∈ sl, SlOk o) : anySlice (sl.map normSl) = anySlice sl := by
  unfold anySlice
  rw [List.any_map]
  induction sl with
  | nil => rfl
  | cons o sl ih =>
    rw [List.any_cons, List.any_cons, ih (fun o ho => h o (by simp [ho]))]
    congr 1
    cases o with
    | none => rfl
    | some s =>
      have := (h (some s) (by simp)).norm_empty
      simp only [Function.comp_apply, normSl, Option.map_some, ne_eq, this]

/-- An iterator that is idle at a point, after `_checkpoint`. -/
theorem ctsAt_checkpoint (hp : Sim p (es.map .ok) ended pAt pCk) {a rest : List (List (List (CtsCol τ)))} {pt : CtsPt τ} (hgs : gs = a ++ rest)
    (href : Refills cfg ended es pt rest) (hpt : PtOk cfg es pt) {s : CtsState τ p.S p.C} (hat : pAt s.parent pt.1) (hrem : RemRel cfg pCk s.rem pt.2)
    (hq : s.queue = []) (hs : s.stop = false) : CtsAt cfg ended es gs pAt pCk (ctsCheckpoint cfg p s) a.flatten.length := by
  obtain ⟨ps, c, hck, hat1, hc0, hcr⟩ := ctsCheckpoint_rel hp hat hrem
  rw [hck]
  exact ⟨⟨a, rest, pt, hgs, href, hpt, hcr, by simp [hc0], by simp [hc0]⟩, Or.inl ⟨a, rest, pt, hgs, href, hpt, hat1, hrem, rfl, hq, hs⟩⟩

theorem ctsSet_at (hp : Sim p (es.map .ok) ended pAt pCk) {s : CtsState τ p.S p.C} {q : Nat} (hat : pAt s.parent q) {c : CtsCk p.C} {m : Nat}
    (hck : CtsCkp cfg ended es gs pCk c m) (hm : m < gs.flatten.length ∨ ended = true) :
    ∃ s', Ev (fun F => ctsSet cfg p F s c = some (s', none)) ∧ CtsAt cfg ended es gs pAt pCk s' m := by
  obtain ⟨a, rest, pt, hgs, href, hpt, hcr, hn, hcount⟩ := hck
  have hle : a.flatten.length + c.count ≤ gs.flatten.length := by
    rw [hgs]
    cases rest with
    | nil => simp at hcount ⊢; omega
    | cons o rest => simp only [List.headD_cons] at hcount; simp only [List.flatten_append, List.flatten_cons, List.length_append]; omega
  -- the parent can be restored to any position of an element, and to the end if the data is known to end there
  have hpm : ∀ i, pCk c.parent i → (i < es.length ∨ ended = true) → ∃ ps, Ev (fun F => p.set F s.parent c.parent = some (ps, none)) ∧ pAt ps i := by
    intro i hi hb
    exact hp.set hat hi (by rw [List.length_map]; exact hb)
  have plain : ∀ i, pCk c.parent i → Refills cfg ended es (i, none) rest → PtOk cfg es (i, none) → c.hasRemainder = false →
      (i < es.length ∨ ended = true) → ∃ s', Ev (fun F => ctsSet cfg p F s c = some (s', none)) ∧ CtsAt cfg ended es gs pAt pCk s' m := by
    intro i hi hre hpti hrem hb
    obtain ⟨ps, e1, hps⟩ := hpm i hi hb
    have hat0 := ctsAt_checkpoint hp hgs hre hpti (s := { s with parent := ps, queue := [], rem := none, stop := false }) hps trivial rfl rfl
    obtain ⟨s', e2, h2⟩ := ctsReplay_at hp c.count hat0 hle
    refine ⟨s', e1.mono₂ e2 (fun F f1 f2 => ?_), by rw [hn]; exact h2⟩
    simp only [ctsSet, f1, Option.bind_eq_bind, Option.bind_some, hrem, Bool.false_eq_true, if_false, f2]
  obtain ⟨q', rem⟩ := pt
  cases rem with
  | none =>
    obtain ⟨h1, h2⟩ := hcr
    refine plain q' h1 href hpt (by unfold CtsCk.hasRemainder; rw [h2]; exact anySlice_empty cfg) ?_
    rcases hm with hm | hm
    · by_cases hend : ended = true
      · exact Or.inr hend
      · left
        -- a refill of an unbounded input needs another element
        cases rest with
        | nil => rw [hn, hgs] at hm; simp at hm hcount; omega
        | cons o rest =>
          obtain ⟨_, pt', st, hpr, _⟩ := href
          by_contra hlt
          unfold pureRefill pureRead at hpr
          simp only [List.drop_eq_nil_of_le (show es.length ≤ q' by omega), pureLoop] at hpr
          rw [if_neg hend] at hpr
          cases hpr
    · exact Or.inr hm
  | some ib =>
    obtain ⟨i, b⟩ := ib
    obtain ⟨h1, h2, h3⟩ := hcr
    have hpt0 := hpt
    obtain ⟨hq', rfl, hv, hbo, hbn, hsf⟩ := hpt
    have hilt : i < es.length := hq'
    cases hany : anySlice c.slices with
    | false =>
      have hb0 : anySlice b.slices = false := by rw [← h2, anySlice_norm h3]; exact hany
      refine plain i h1 ?_ ⟨by simp only; omega, trivial⟩ hany (Or.inl hilt)
      have hun := pureRefill_unsplit (ended := ended) hpt0 hb0
      cases rest with
      | nil =>
        intro hend
        rw [hun]
        exact href hend
      | cons o rest =>
        obtain ⟨hne, pt', st, hpr, hr⟩ := href
        exact ⟨hne, pt', st, by rw [hun]; exact hpr, hr⟩
    | true =>
      obtain ⟨ps, e1, hps⟩ := hpm i h1 (Or.inl hilt)
      obtain ⟨ps', e2, hps'⟩ := hp.next_item hps (show (es.map (Except.ok : _ → Py _))[i]? = some (.ok b.vals) by simp [hv])
      have hset : SlSet c.slices := by
        intro s hs
        have hs' : some s.norm ∈ b.slices := by
          rw [← h2]
          exact List.mem_map.2 ⟨some s, hs, rfl⟩
        rcases hbo.2 with hb | hb
        · have : b.slices.map normSl = b.slices := congrArg CtsBody.slices hbn
          rw [this, ← h2] at hb
          have h5 := anySlice_norm h3
          rw [hb, anySlice_empty, hany] at h5
          cases h5
        · exact hb.2 s.norm hs'
      have hb' : (CtsBody.mk b.vals c.slices).norm = b := by
        cases b; simp only [CtsBody.norm] at h2 ⊢; rw [h2]
      have hat0 := ctsAt_checkpoint hp hgs href hpt0
        (s := { s with parent := ps', queue := [], rem := some (c.parent, ⟨b.vals, c.slices⟩), stop := false }) hps' ⟨h1, hb', h3, Or.inr ⟨hany, hset⟩⟩ rfl rfl
      obtain ⟨s', e3, h3'⟩ := ctsReplay_at hp c.count hat0 hle
      refine ⟨s', (e1.and e2).mono₂ e3 (fun F f1 f3 => ?_), by rw [hn]; exact h3'⟩
      have hr : c.hasRemainder = true := hany
      simp only [ctsSet, f1.1, f1.2, toRes, Option.bind_eq_bind, Option.bind_some, hr, if_true, f3]

theorem ctsAt_parent {s : CtsState τ p.S p.C} {n : Nat} (h : CtsAt cfg ended es gs pAt pCk s n) : ∃ q, pAt s.parent q := by
  obtain ⟨_, h | h | h⟩ := h
  · obtain ⟨a, rest, pt, hgs, href, hpt, hat, _⟩ := h; exact ⟨_, hat⟩
  · obtain ⟨a, rest, outs, pt, pt', st, hgs, href, hpt, hck, hpr, hat, _⟩ := h; exact ⟨_, hat⟩
  · exact h.2.2.2.2

theorem cts_at_init (hp : Sim p (es.map .ok) ended pAt pCk) (href : Refills cfg ended es (0, none) gs) :
    CtsAt cfg ended es gs pAt pCk (ctsIter cfg p).init 0 := by
  obtain ⟨g1, g2⟩ := hp.get hp.init
  exact ⟨⟨[], gs, (0, none), rfl, href, ⟨Nat.zero_le _, trivial⟩, ⟨g2, rfl⟩, rfl, Nat.zero_le _⟩,
    Or.inl ⟨[], gs, (0, none), rfl, href, ⟨Nat.zero_le _, trivial⟩, g1, trivial, rfl, rfl, rfl⟩⟩

theorem flatten_ok {gs : List (List α)} {n : Nat} {r : Py α} (h : (gs.flatten.map (Except.ok : α → Py α))[n]? = some r) :
    ∃ row, gs.flatten[n]? = some row ∧ r = .ok row := by
  rw [List.getElem?_map] at h
  cases hr : gs.flatten[n]? with
  | none => rw [hr] at h; cases h
  | some row => rw [hr] at h; exact ⟨row, rfl, (Option.some.inj h).symm⟩

/-- Simulation of the iterator whose checkpoints go through `g`. -/
theorem cts_sim_with (hp : Sim p (es.map .ok) ended pAt pCk) (href : Refills cfg ended es (0, none) gs) (g : CtsCk p.C → CtsCk p.C)
    (hg : ∀ c m, CtsCkp cfg ended es gs pCk c m → CtsCkp cfg ended es gs pCk (g c) m) :
    Sim { ctsIter cfg p with get := fun s => (s, g s.ck) } (gs.flatten.map .ok) ended (CtsAt cfg ended es gs pAt pCk) (CtsCkp cfg ended es gs pCk) where
  init := cts_at_init hp href
  bound h := by rw [List.length_map]; exact ctsAt_bound h
  next_item h hr := by
    obtain ⟨row, h1, rfl⟩ := flatten_ok hr
    exact ctsAt_item hp h h1
  next_stop h hend := by rw [List.length_map] at *; exact ctsAt_stop hp h hend
  get h := ⟨h, hg _ _ h.1⟩
  set h hck hm := by
    rw [List.length_map] at hm
    obtain ⟨q, hq⟩ := ctsAt_parent h
    exact ctsSet_at hp hq hck hm
  ck_bound h := by
    obtain ⟨a, rest, pt, hgs, _, _, _, hn, hc⟩ := h
    rw [List.length_map]
    cases rest with
    | nil =>
      have h0 : _ = 0 := Nat.le_zero.1 hc
      rw [hgs, hn, h0, List.append_nil]; exact Nat.le_refl _
    | cons o rest => rw [hgs]; simp only [List.headD_cons] at hc; simp only [List.flatten_append, List.flatten_cons, List.length_append]; omega

theorem cts_sim (hp : Sim p (es.map .ok) ended pAt pCk) (href : Refills cfg ended es (0, none) gs) :
    Sim (ctsIter cfg p) (gs.flatten.map .ok) ended (CtsAt cfg ended es gs pAt pCk) (CtsCkp cfg ended es gs pCk) :=
  cts_sim_with hp href id (fun _ _ h => h)

end

end Grain
