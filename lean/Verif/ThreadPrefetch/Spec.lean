import Verif.Iter.Stream
/-
What a user of a thread-prefetched iterator sees: a position in the parent's stream.
-/
namespace Grain

/-- The calls a user can make: `next`, `get_state`, `set_state` of the `k`-th saved state, a crash followed by restoring
the `k`-th saved state into a new iterator, `start_prefetch`, `close`, `get_next_index`, `set_next_index`. -/
inductive TOp where
  | next
  | save
  | restore (k : Nat)
  | fresh (k : Nat)
  | start
  | close
  | index
  | setIndex (i : Nat)
  deriving DecidableEq, Repr

/-- The ideal iterator over the stream `x`.  `pos` is the position in the stream, `last` the position right after the last
element received (or restored to, or moved to): that is what `get_state` saves and `get_next_index` returns.  The result is
the list of outcomes of the `next` calls (and of calls of `next` and `start_prefetch` refused with `ValueError` because the
iterator is closed) and of the numbers returned by `get_next_index`; `none` if the calls make no sense (a saved state that
does not exist, `set_state` or an index call on a closed iterator, an index call for a position `i` without `idx i`).
`moved`: `set_next_index` was called, and since then no element and no state was asked for; `start_prefetch` is not
considered then (see `thread_prefetch_set_index_race`). -/
def idealRun (x : Nat → Option (Py α)) (idx : Nat → Bool) : (pos last : Nat) → (moved closed : Bool) → (saved : List Nat) →
    List TOp → Option (List (Res α ⊕ Int))
  | _, _, _, _, _, [] => some []
  | pos, last, moved, false, saved, .next :: ops =>
    match x pos with
    | some (.ok a) => (idealRun x idx (pos + 1) (pos + 1) false false saved ops).map (.inl (.item a) :: ·)
    | some (.error e) => (idealRun x idx (pos + 1) last moved false saved ops).map (.inl (.fail e) :: ·)
    | none => (idealRun x idx pos last moved false saved ops).map (.inl .stop :: ·)
  | pos, last, moved, true, saved, .next :: ops =>
    (idealRun x idx pos last moved true saved ops).map (.inl (.fail .valueError) :: ·)
  | pos, last, moved, closed, saved, .save :: ops =>
    if moved && closed then none else idealRun x idx pos last false closed (saved ++ [last]) ops
  | _, _, _, closed, saved, .restore k :: ops =>
    match saved[k]?, closed with
    | some p, false => idealRun x idx p p false false saved ops
    | _, _ => none
  | _, _, _, _, saved, .fresh k :: ops =>
    match saved[k]? with
    | some p => idealRun x idx p p false false saved ops
    | none => none
  | pos, last, moved, false, saved, .start :: ops =>
    if moved then none else idealRun x idx pos last false false saved ops
  | pos, last, moved, true, saved, .start :: ops =>
    (idealRun x idx pos last moved true saved ops).map (.inl (.fail .valueError) :: ·)
  | pos, last, moved, _, saved, .close :: ops => idealRun x idx pos last moved true saved ops
  | pos, last, moved, false, saved, .index :: ops =>
    if idx last then (idealRun x idx pos last moved false saved ops).map (.inr last :: ·) else none
  | _, _, _, false, saved, .setIndex i :: ops =>
    if idx i then idealRun x idx i i true false saved ops else none
  | _, _, _, true, _, .index :: _ => none
  | _, _, _, true, _, .setIndex _ :: _ => none

end Grain
