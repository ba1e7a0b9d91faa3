import Verif.Close.Props
import Verif.Sources.Props
/-
C66: concrete pipelines that meet the hypotheses of the theorems in `Verif/Close/Props.lean`, and pipelines on which the code
does not keep the promise of `close`.
-/
namespace Grain

theorem not_releases {c : Closable α} {F : Nat} {before after : List CloseOp} {src : List Bool} {rs : List (Res α)}
    (h : c.shows F (before ++ .close :: after) = some (src, rs)) (hf : false ∈ src) : ¬ c.Releases := by
  intro hr
  unfold Closable.shows at h
  cases hq : c.run F c.it.init [] (before ++ .close :: after) with
  | none => rw [hq] at h; cases h
  | some q =>
    obtain ⟨s, saved, rs'⟩ := q
    rw [hq] at h
    cases h
    cases hr F before after s saved _ hq _ hf

theorem not_raises {c : Closable α} {F : Nat} {before after : List CloseOp} {src : List Bool} {rs : List (Res α)}
    (h : c.shows F (before ++ .close :: after) = some (src, rs))
    (hf : rs.drop (before.count .next) ≠ List.replicate (after.count .next) (.fail .valueError)) : ¬ c.RaisesWhenClosed := by
  intro hr
  unfold Closable.shows at h
  cases hq : c.run F c.it.init [] (before ++ .close :: after) with
  | none => rw [hq] at h; cases h
  | some q =>
    obtain ⟨s, saved, rs'⟩ := q
    rw [hq] at h
    cases h
    exact hf (hr.1 F before after s saved _ hq)

/-- The numbers `0, ..., n - 1`. -/
def firstNumbers (n : Nat) : MapDs Nat where
  len := n
  getitem i := .ok (some i.toNat)
  getitems is := .ok (is.map (fun i => some i.toNat))

def numbers (n : Nat) : Closable (Option Nat) := .mapDataset 2 1 true none (firstNumbers n)

/-- `ds.to_iter_dataset().map(...).batch(2).mp_prefetch`-like pipeline: two sources, zipped, batched, prefetched. -/
def bigPipe : Closable (List (List (Option Nat))) :=
  .threadPrefetch 3 (.batch 2 false Except.ok (.zip (n := 2) false (fun i => .map (fun k => .ok (some (k + i.val))) (numbers (4 + i.val)))))

theorem bigPipe_releasing : ReleasingPipe bigPipe :=
  .threadPrefetch 3 (.batch 2 false _ (.zip false (fun i => .map _ (.mapDataset 2 1 true none _))))

theorem bigPipe_raising : RaisingPipe bigPipe := .threadPrefetch _ 3 (by decide)

-- the two theorems apply, and a run with `next`s before and after
example : bigPipe.Releases ∧ bigPipe.RaisesWhenClosed := ⟨close_releases bigPipe_releasing, next_raises_when_closed bigPipe_raising⟩
example : bigPipe.shows 9 [.next, .save, .close, .next, .restore 0, .next, .close] =
    some ([true, true], [.item [[some 0, some 1], [some 1, some 2]], .fail .valueError, .fail .valueError]) := rfl
example : bigPipe.shows 9 [.next, .save, .next, .next] =
    some ([false, false], [.item [[some 0, some 1], [some 1, some 2]], .item [[some 2, some 3], [some 3, some 4]], .stop]) := rfl

example : RaisingPipe (.batch 2 false (Except.ok (α := List (Option Nat))) (.filter (fun x => .ok x.isSome) none (.map (fun k : Nat => .ok (some k)) (numbers 3)))) :=
  .batch 2 false _ (by decide) (.filter _ none (.map _ (.mapDataset 2 1 true none _)))

/-! ### `next` after `close` does not raise -/

/-- F53: an element that was split by `flat_map` before `close` is still handed out. -/
theorem flatMap_yields_after_close :
    ¬ (Closable.flatMap (fun _ : Option Nat => .ok [1, 2]) (numbers 2)).RaisesWhenClosed :=
  not_raises (F := 9) (before := [.next]) (after := [.next, .next]) (src := [true]) (rs := [.item 1, .item 2, .fail .valueError]) rfl (by decide)

/-- F53: the rest of a batch that was split by `rebatch` before `close` is still handed out. -/
theorem rebatch_yields_after_close :
    ¬ (Closable.rebatch 1 false (.batch 2 false Except.ok (numbers 2))).RaisesWhenClosed :=
  not_raises (F := 9) (before := [.next]) (after := [.next, .next]) (src := [true]) (rs := [.item [some 0], .item [some 1], .fail .valueError]) rfl
    (by decide)

/-- F53: the rest of a shuffled window is still handed out. -/
theorem windowShuffle_yields_after_close :
    ¬ (Closable.windowShuffle (fun _ l => .ok l.reverse) 2 (numbers 4)).RaisesWhenClosed :=
  not_raises (F := 9) (before := [.next]) (after := [.next, .next]) (src := [true]) (rs := [.item (some 0), .item (some 1), .fail .valueError]) rfl
    (by decide)

/-- F53: a full cache goes on handing out elements after `close` and a restore. -/
theorem cache_yields_after_close : ¬ (Closable.cache (numbers 2)).RaisesWhenClosed :=
  not_raises (F := 9) (before := [.save, .next, .next, .next]) (after := [.restore 0, .next, .next, .next]) (src := [true])
    (rs := [.item (some 0), .item (some 1), .stop, .item (some 0), .item (some 1), .stop]) rfl (by decide)

/-- F53: `limit` reports the end of the data instead of the closed iterator. -/
theorem limit_stops_after_close : ¬ (Closable.limit 1 (numbers 2)).RaisesWhenClosed :=
  not_raises (F := 9) (before := [.next]) (after := [.next]) (src := [true]) (rs := [.item (some 0), .stop]) rfl (by decide)

/-- F53: so does `repeat` after its last epoch. -/
theorem repeat_stops_after_close : ¬ (Closable.repeat (some 1) (numbers 1)).RaisesWhenClosed :=
  not_raises (F := 9) (before := [.next, .next]) (after := [.next]) (src := [true]) (rs := [.item (some 0), .stop, .stop]) rfl (by decide)

/-- F53: `mix` raises once and then reports the end of the data. -/
theorem mix_stops_after_close : ¬ (Closable.mix (n := 2) [1, 1] (fun _ => numbers 2)).RaisesWhenClosed :=
  not_raises (F := 9) (before := [.next]) (after := [.next, .next]) (src := [true, true]) (rs := [.item (some 0), .fail .valueError, .stop]) rfl
    (by decide)

/-! ### `close` leaves something open -/

/-- F54: the iterator over a TFRecord file goes on reading after `close`, and the file is not closed. -/
theorem tfRecord_close_does_nothing :
    ¬ (Closable.file (tfRecordIter (tfFile threeRecords))).RaisesWhenClosed ∧ ¬ (Closable.file (tfRecordIter (tfFile threeRecords))).Releases :=
  have h : (Closable.file (tfRecordIter (tfFile threeRecords))).shows 0 ([.next] ++ .close :: [.next]) =
      some ([false], [.item [7, 8, 9], .item []]) := rfl
  ⟨not_raises h (by decide), not_releases h (by decide)⟩

/-- Two datasets, of the numbers below 2 and below 3. -/
def numberFam : CloseFam (Option Nat) where
  S := PrefetchState × Bool
  C := Int
  init d := (numbers (d + 2)).it.init
  next d := (numbers (d + 2)).it.next
  get d := (numbers (d + 2)).it.get
  set d := (numbers (d + 2)).it.set
  close d := (numbers (d + 2)).close
  sources d := (numbers (d + 2)).sources

-- `interleave_close_releases_partial` applies to it
example : ∀ d, ReleasingPipe (numberFam.closable d) := fun d => .mapDataset 2 1 true none (firstNumbers (d + 2))
example : (Closable.interleave numberFam 3 2 false).shows 9 [.next, .next, .next, .save, .close, .next, .close] =
    some ([true, true], [.item (some 0), .item (some 0), .item (some 1), .fail .valueError]) := rfl

/-- F55: `get_state` of a closed interleave opens iterators, and a second `close` does not close them. -/
theorem interleave_save_after_close_opens : ¬ (Closable.interleave numberFam 3 2 false).Releases :=
  not_releases (F := 9) (before := []) (after := [.save, .close]) (src := [false, false]) (rs := []) rfl (by decide)

/-- F55: so does restoring a state. -/
theorem interleave_restore_after_close_opens :
    (Closable.interleave numberFam 3 2 false).shows 9 ([.next, .save, .next, .next, .next, .next, .next] ++ .close :: [.restore 0, .close]) =
      some ([false, true], [.item (some 0), .item (some 0), .item (some 1), .item (some 1), .item (some 2), .item (some 0)]) := rfl

/-- F55: with kept iterators (`interleave` below `repeat`), used up iterators stay open. -/
theorem interleave_kept_iterators_stay_open : ¬ (Closable.interleave numberFam 1 1 true).Releases :=
  not_releases (F := 9) (before := [.next, .next, .next]) (after := []) (src := [false]) (rs := [.item (some 0), .item (some 1), .stop]) rfl (by decide)

/-- The elastic iterator over the numbers below 6, batches of two. -/
def elasticNumbers : Closable (Option (List (Option Nat))) := .elastic (fun xs => .ok (some xs)) (firstNumbers 6) 2 1 2 0 1

/-- F52: `ElasticIterator.close` closes nothing: `next` goes on, and the reading threads stay. -/
theorem elastic_close_does_nothing : ¬ elasticNumbers.RaisesWhenClosed ∧ ¬ elasticNumbers.Releases :=
  have h : elasticNumbers.shows 9 ([.next] ++ .close :: [.next]) =
      some ([false], [.item (some [some 0, some 1]), .item (some [some 2, some 3])]) := rfl
  ⟨not_raises h (by decide), not_releases h (by decide)⟩

end Grain
