import Verif.Py
/-
Model of `grain/_src/python/experimental/index_shuffle/index_shuffle.cc` and of the map-style shuffles in
`grain/_src/python/dataset/transformations/shuffle.py`.
-/
namespace Grain

/-- `ROTL`, index_shuffle.cc:52, on `std::bitset<W>` (`<<` drops the high bits). -/
def rotl {W : Nat} (x : BitVec W) (r : Nat) : BitVec W := (x <<< r) ||| (x >>> (W - r))

/-- `SIMON_F`, index_shuffle.cc:54 (`&` binds tighter than `^`). -/
def simonF {W : Nat} (x : BitVec W) : BitVec W := (rotl x 1 &&& rotl x 8) ^^^ rotl x 2

/-- `SIMON_Rx2(x, y, k1, k2, W)`, index_shuffle.cc:55-56.  The state is `(left, right)` and the macro is
called with `x = right`, `y = left` (line 80).  Keys are converted to `std::bitset<W>`, i.e. truncated. -/
def simonRx2 {W : Nat} (s : BitVec W × BitVec W) (k1 k2 : BitVec 32) : BitVec W × BitVec W :=
  let right := s.2
  let left := s.1 ^^^ simonF right
  let left := left ^^^ k1.setWidth W
  let right := right ^^^ simonF left
  let right := right ^^^ k2.setWidth W
  (left, right)

/-- The loop at index_shuffle.cc:79-81: two keys per iteration.  With an odd number of keys the C++ code
reads past the vector; the assertion at line 122 excludes it and the model ignores the last key. -/
def simonRounds {W : Nat} : List (BitVec 32) → BitVec W × BitVec W → BitVec W × BitVec W
  | k1 :: k2 :: ks, s => simonRounds ks (simonRx2 s k1 k2)
  | _, s => s

/-- `simon_encrypt<W>`, index_shuffle.cc:72-83. -/
def simonEncrypt (W : Nat) (value : Nat) (keys : List (BitVec 32)) : Nat :=
  let s := simonRounds keys (BitVec.ofNat W (value >>> W), BitVec.ofNat W value)
  (s.1.toNat <<< W) ||| s.2.toNat

/-- The `while (true)` loop of `impl::index_shuffle<B>`, index_shuffle.cc:95-100; `enc` is
`simon_encrypt<B/2>(·, round_keys)`.  `none`: not finished within `fuel` iterations. -/
def cycleWalk (enc : Nat → Nat) (maxIndex : Nat) : Nat → Nat → Option Nat
  | 0, _ => none
  | fuel + 1, x =>
    let y := enc x
    if y ≤ maxIndex then some y else cycleWalk enc maxIndex fuel y

/-- `ceil(log2(n))` for `n ≥ 1`, index_shuffle.cc:118.  The C++ code goes through `double`; that is exact
for `n ≤ 2^48` and the rounding beyond is not modelled. -/
def ceilLog2 (n : Nat) : Nat := if n ≤ 1 then 0 else Nat.log2 (n - 1) + 1

/-- Block size selection, index_shuffle.cc:118-120 with `kMinBlockSize = 16` (line 48), and the dispatch
at 129-156 (anything not in 16..62 runs with 64). -/
def blockSize (maxIndex : Nat) : Nat :=
  let b := ceilLog2 maxIndex
  let b := max (b + b % 2) 16
  if b ≤ 62 then b else 64

/-- `index_shuffle`, index_shuffle.cc:110-158, as a loop with explicit fuel.  `keys` is what
`generate_keys(seed, rounds)` (61-67, `std::seed_seq`) returns; it is a parameter. -/
def indexShuffleFuel (fuel index maxIndex : Nat) (keys : List (BitVec 32)) : Option Nat :=
  if maxIndex = 0 then some 0
  else cycleWalk (fun v => simonEncrypt (blockSize maxIndex / 2) v keys) maxIndex fuel index

/-- `index_shuffle` with enough fuel (`indexShuffle_terminates` shows the fuel suffices, so `getD` is
never used). -/
def indexShuffle (index maxIndex : Nat) (keys : List (BitVec 32)) : Nat :=
  (indexShuffleFuel (2 ^ blockSize maxIndex) index maxIndex keys).getD 0

/-- `ShuffleMapDataset._shuffled_index`, shuffle.py:60-71.  `keysOf` is `generate_keys(·, 4)`.
`divmod` by a zero length raises `ZeroDivisionError`. -/
def shuffledIndex (keysOf : Nat → List (BitVec 32)) (seed length : Nat) (index : Int) : Py Int :=
  if length = 0 then .error .zeroDivision
  else
    let epoch := index / (length : Int)
    let indexInEpoch := (index % (length : Int)).toNat
    let perEpochSeed := ((seed : Int) + epoch) % 2 ^ 32
    let shuffled := indexShuffle indexInEpoch (length - 1) (keysOf perEpochSeed.toNat)
    .ok (shuffled + epoch * (length : Int))

/-- `WindowShuffleMapDataset._shuffled_index`, shuffle.py:112-121.  The seed is passed on without reduction
(line 114); the binding rejects seeds outside `uint32` with a `TypeError`. -/
def windowShuffledIndex (keysOf : Nat → List (BitVec 32)) (seed windowSize : Nat) (index : Int) : Py Int :=
  if windowSize = 0 then .error .zeroDivision
  else
    let windowIndex := index / (windowSize : Int)
    let indexInWindow := (index % (windowSize : Int)).toNat
    let s := (seed : Int) + windowIndex
    if s < 0 ∨ s ≥ 2 ^ 32 then .error .typeError
    else
      let shuffled := indexShuffle indexInWindow (windowSize - 1) (keysOf s.toNat)
      .ok (shuffled + windowIndex * (windowSize : Int))

/-- `_reshuffle_window`, shuffle.py:171-179: `window[index_shuffle(pos, …)]` for every position.  An index out of range
would be an `IndexError`; a seed outside `uint32` is rejected by the binding on the first call (so not for an empty
window). -/
def reshuffleWindow (keysOf : Nat → List (BitVec 32)) (window : List α) (seed : Nat) : Py (List α) :=
  (List.range window.length).mapM fun pos =>
    if seed ≥ 2 ^ 32 then .error .typeError
    else match window[indexShuffle pos (window.length - 1) (keysOf seed)]? with
      | some a => .ok a
      | none => .error .indexError

end Grain
