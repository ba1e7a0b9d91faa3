import Verif.Checkpoint.Model
/-
Lemmas for C48.
-/
namespace Grain

theorem dec_digit {n : Nat} {c : Char} (h : c ∈ dec n) : c.isDigit = true := Nat.isDigit_of_mem_toDigits (by decide) (by decide) h

theorem dec_ne_dash {n : Nat} : ∀ c ∈ dec n, c ≠ '-' := by
  rintro c h rfl
  have := dec_digit h
  revert this
  decide

theorem dec_ne_dot {n : Nat} : ∀ c ∈ dec n, c ≠ '.' := by
  rintro c h rfl
  have := dec_digit h
  revert this
  decide

theorem dec_ne_nil (n : Nat) : dec n ≠ [] := Nat.toDigits_ne_nil

theorem dec_value (n : Nat) : Nat.ofDigitChars 10 (dec n) 0 = n := Nat.ofDigitChars_ten_toDigits

theorem dec_inj {m n : Nat} (h : dec m = dec n) : m = n := by rw [← dec_value m, h, dec_value]

/-- Two texts that are cut at the first occurrence of a character are equal part by part. -/
theorem cut_inj {c : Char} : ∀ {a a' b b' : List Char}, (∀ x ∈ a, x ≠ c) → (∀ x ∈ a', x ≠ c) → a ++ c :: b = a' ++ c :: b' →
    a = a' ∧ b = b'
  | [], [], b, b', _, _, h => ⟨rfl, by simpa using h⟩
  | [], x :: a', b, b', _, h', h => by
    injection h with h1 _
    exact absurd h1.symm (h' x (List.mem_cons_self ..))
  | x :: a, [], b, b', h', _, h => by
    injection h with h1 _
    exact absurd h1 (h' x (List.mem_cons_self ..))
  | x :: a, y :: a', b, b', h1, h2, h => by
    injection h with e1 e2
    obtain ⟨r1, r2⟩ := cut_inj (fun z hz => h1 z (List.mem_cons_of_mem _ hz)) (fun z hz => h2 z (List.mem_cons_of_mem _ hz)) e2
    exact ⟨by rw [e1, r1], r2⟩

theorem splitGo_skip (sep pre rest acc : List Char) (hsep : ∃ c l, sep = c :: l ∧ ∀ x ∈ pre, x ≠ c) :
    splitGo sep 0 acc (pre ++ rest) = splitGo sep 0 (pre.reverse ++ acc) rest := by
  obtain ⟨c, l, rfl, h⟩ := hsep
  induction pre generalizing acc with
  | nil => rfl
  | cons x pre ih =>
    have hx : x ≠ c := h x (List.mem_cons_self ..)
    rw [List.cons_append, splitGo, if_neg (by simp [Ne.symm hx]), ih _ (fun y hy => h y (List.mem_cons_of_mem _ hy))]
    simp

theorem splitOn_of (a b : List Char) (ha : ∀ x ∈ a, x ≠ '-') (hb : ∀ x ∈ b, x ≠ '-') : splitOn sOf (a ++ sOf ++ b) = [a, b] := by
  unfold splitOn
  rw [List.append_assoc, splitGo_skip sOf a _ [] ⟨'-', _, rfl, ha⟩, List.append_nil]
  have : splitGo sOf 0 a.reverse (sOf ++ b) = a.reverse.reverse :: splitGo sOf 0 [] b := by
    simp [sOf, splitGo]
  rw [this, List.reverse_reverse]
  have h2 := splitGo_skip sOf b [] [] ⟨'-', _, rfl, hb⟩
  rw [List.append_nil, List.append_nil] at h2
  rw [h2]
  simp [splitGo]

theorem splitGo_ne_nil (sep : List Char) : ∀ (l : List Char) (skip : Nat) (acc : List Char), 0 < (splitGo sep skip acc l).length := by
  intro l
  induction l with
  | nil => intro skip acc; cases skip <;> simp [splitGo]
  | cons c l ih =>
    intro skip acc
    cases skip with
    | zero =>
      unfold splitGo
      split
      · simp
      · exact ih _ _
    | succ skip => unfold splitGo; exact ih _ _

theorem splitGo_length {sep : List Char} (hs : sep ≠ []) : ∀ (l : List Char) (acc : List Char),
    1 < (splitGo sep 0 acc l).length ↔ sep <:+: l := by
  intro l
  induction l with
  | nil =>
    intro acc
    simp [splitGo, hs]
  | cons c l ih =>
    intro acc
    unfold splitGo
    rw [List.infix_cons_iff]
    split
    · rename_i h
      have := splitGo_ne_nil sep l (sep.length - 1) []
      simp only [List.length_cons]
      exact ⟨fun _ => Or.inl (List.isPrefixOf_iff_prefix.1 h), fun _ => by omega⟩
    · rename_i h
      rw [ih]
      exact ⟨Or.inr, fun h' => h'.resolve_left (fun hp => h (List.isPrefixOf_iff_prefix.2 hp))⟩

theorem splitOn_length {sep : List Char} (hs : sep ≠ []) (l : List Char) : 1 < (splitOn sep l).length ↔ ∃ a b, a ++ sep ++ b = l :=
  splitGo_length hs l []

theorem globProcess_procFile (i n : Nat) : globProcess (procFile i n) = true := by
  have h1 : ((procFile i n).drop sProcess.length).take ((procFile i n).length - sProcess.length - sJson.length) = dec i ++ sOf ++ dec n := by
    unfold procFile
    rw [List.append_assoc, List.append_assoc, List.append_assoc, List.drop_left]
    rw [show dec i ++ (sOf ++ (dec n ++ sJson)) = (dec i ++ sOf ++ dec n) ++ sJson by simp]
    apply List.take_left'
    simp
    omega
  unfold globProcess
  rw [h1, splitOn_of _ _ dec_ne_dash dec_ne_dash]
  have hp : sProcess.isPrefixOf (procFile i n) = true := by
    rw [List.isPrefixOf_iff_prefix]
    exact ⟨dec i ++ sOf ++ dec n ++ sJson, by simp [procFile]⟩
  have hs : sJson.isSuffixOf (procFile i n) = true := by
    rw [List.isSuffixOf_iff_suffix]
    exact ⟨_, rfl⟩
  rw [hp, hs]
  simp [procFile]
  omega

theorem globProcess_shardFile (k : Nat) : globProcess (shardFile k) = false := by
  unfold globProcess
  have : sProcess.isPrefixOf (shardFile k) = false := rfl
  rw [this]
  simp

theorem countOfName_procFile (i n : Nat) : countOfName (procFile i n) = .ok n := by
  have h1 : (procFile i n).take ((procFile i n).length - sJson.length) = (sProcess ++ dec i) ++ sOf ++ dec n := by
    unfold procFile
    apply List.take_left'
    simp
    omega
  unfold countOfName
  rw [h1, splitOn_of _ _ (by
    intro x hx
    rcases List.mem_append.1 hx with hx | hx
    · rintro rfl
      revert hx
      decide
    · exact dec_ne_dash x hx) dec_ne_dash]
  simp only [List.getElem?_cons_succ, List.getElem?_cons_zero, parseInt]
  rw [if_pos ⟨dec_ne_nil n, List.all_eq_true.2 (fun c hc => dec_digit hc)⟩, dec_value]

/-! ### Directories -/

/-- Write files one after the other. -/
def Dir.writes (d : Dir T) (ws : List (List Char × T)) : Dir T := ws.foldl (fun d w => d.write w.1 w.2) d

theorem read_write_self (d : Dir T) (name : List Char) (t : T) : (d.write name t).read name = some t := by
  simp [Dir.write, Dir.read]

theorem read_write_ne (d : Dir T) {name name' : List Char} (t : T) (h : name' ≠ name) : (d.write name t).read name' = d.read name' := by
  unfold Dir.write Dir.read
  rw [List.find?_cons_of_neg (by simpa using Ne.symm h)]
  congr 1
  induction d with
  | nil => rfl
  | cons f d ih =>
    by_cases h1 : f.1 = name
    · rw [List.filter_cons_of_neg (by simp [h1]), List.find?_cons_of_neg (by rw [h1]; simpa using Ne.symm h)]
      exact ih
    · rw [List.filter_cons_of_pos (by simp [h1])]
      by_cases h2 : f.1 = name'
      · rw [List.find?_cons_of_pos (by simp [h2]), List.find?_cons_of_pos (by simp [h2])]
      · rw [List.find?_cons_of_neg (by simp [h2]), List.find?_cons_of_neg (by simp [h2])]
        exact ih

theorem read_writes_ne : ∀ (ws : List (List Char × T)) (d : Dir T) {name : List Char}, (∀ w ∈ ws, w.1 ≠ name) →
    (d.writes ws).read name = d.read name
  | [], _, _, _ => rfl
  | w :: ws, d, name, h => by
    have h1 := read_writes_ne ws (d.write w.1 w.2) (fun w' hw => h w' (List.mem_cons_of_mem _ hw))
    rw [show d.writes (w :: ws) = (d.write w.1 w.2).writes ws from rfl, h1]
    exact read_write_ne d _ (Ne.symm (h w (List.mem_cons_self ..)))

theorem read_writes_mem : ∀ (ws : List (List Char × T)) (d : Dir T) {name : List Char} {t : T}, (ws.map (·.1)).Nodup → (name, t) ∈ ws →
    (d.writes ws).read name = some t
  | [], _, _, _, _, h => by cases h
  | w :: ws, d, name, t, hn, h => by
    rw [List.map_cons, List.nodup_cons] at hn
    rw [show d.writes (w :: ws) = (d.write w.1 w.2).writes ws from rfl]
    rcases List.mem_cons.1 h with h | h
    · subst h
      rw [read_writes_ne ws]
      · exact read_write_self d name t
      · intro w hw e
        exact hn.1 (List.mem_map.2 ⟨w, hw, e⟩)
    · exact read_writes_mem ws _ hn.2 h

theorem mem_writes : ∀ (ws : List (List Char × T)) (d : Dir T) {f : List Char × T}, f ∈ d.writes ws → f ∈ ws ∨ f ∈ d
  | [], _, _, h => Or.inr h
  | w :: ws, d, f, h => by
    rcases mem_writes ws (d.write w.1 w.2) h with h | h
    · exact Or.inl (List.mem_cons_of_mem _ h)
    · rcases List.mem_cons.1 h with h | h
      · exact Or.inl (by rw [h]; exact List.mem_cons_self ..)
      · exact Or.inr (List.mem_filter.1 h).1

theorem mem_of_read {d : Dir T} {name : List Char} {t : T} (h : d.read name = some t) : (name, t) ∈ d := by
  unfold Dir.read at h
  obtain ⟨f, h1, h2⟩ := Option.map_eq_some_iff.1 h
  have h3 := List.mem_of_find?_eq_some h1
  have h4 := List.find?_some h1
  have h5 : f.1 = name := by simpa using h4
  have : f = (name, t) := by rw [← h5, ← h2]
  rw [← this]
  exact h3

theorem checkpointCount_eq {d : Dir T} {n : Nat} (h1 : ∀ f ∈ d, (∃ i, f.1 = procFile i n) ∨ ∃ k, f.1 = shardFile k)
    (h2 : ∃ i t, (procFile i n, t) ∈ d) : checkpointCount d = .ok n := by
  have key : ∀ (l : Dir T), (∀ f ∈ l, countOfName f.1 = .ok n) → ∀ m, m ≤ n →
      l.foldlM (fun m f => (countOfName f.1).map (max m)) m = (.ok (if l = [] then m else n) : Py Nat) := by
    intro l
    induction l with
    | nil => intro _ m _; rfl
    | cons f l ih =>
      intro h m hm
      rw [List.foldlM_cons, h f (List.mem_cons_self ..)]
      change l.foldlM _ (max m n) = _
      rw [ih (fun g hg => h g (List.mem_cons_of_mem _ hg)) (max m n) (by omega)]
      simp
      omega
  unfold checkpointCount
  rw [key]
  · obtain ⟨i, t, hm⟩ := h2
    rw [if_neg]
    intro he
    have : (procFile i n, t) ∈ d.filter (fun f => globProcess f.1) := List.mem_filter.2 ⟨hm, globProcess_procFile i n⟩
    rw [he] at this
    cases this
  · intro f hf
    obtain ⟨hf, hg⟩ := List.mem_filter.1 hf
    rcases h1 f hf with ⟨i, hi⟩ | ⟨k, hk⟩
    · rw [hi, countOfName_procFile]
    · rw [hk, globProcess_shardFile] at hg
      cases hg
  · exact Nat.zero_le _

end Grain
