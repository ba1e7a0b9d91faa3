import Verif.Sources.Lemmas
import Verif.Iter.PropsPipeline
import Verif.Interleave.Props
/-
C60: TFRecord files are read record by record.  C61: Parquet files are read row by row.
-/
namespace Grain

/-! ### C60 -/

/-- C60: iterating a TFRecord file yields exactly its records in order, then `StopIteration`, and checkpoints taken at any point
resume exactly, under every history of calls. -/
theorem tfrecord_reads_records {rs : List TfRecord} (hv : ∀ r ∈ rs, r.Valid) :
    ResumesExactly (tfRecordIter (tfFile rs)) (rs.map (fun r => .ok r.data)) true := by
  have := tf_resumes hv [] (Or.inl rfl)
  simpa using this.exactly

/-- C60, incomplete files: whatever the number of bytes `n` left of a file, the complete records are returned, then the cut record
is reported with `ValueError`, once (unless the cut is between two records), and then the iteration ends; also across
checkpoints. -/
theorem tfrecord_truncated {rs : List TfRecord} (hv : ∀ r ∈ rs, r.Valid) (n : Nat) :
    ∃ k, k ≤ rs.length ∧ (tfFile (rs.take k)).length ≤ n ∧ (∀ j, j ≤ rs.length → (tfFile (rs.take j)).length ≤ n → j ≤ k) ∧
      ResumesExactly (tfRecordIter ((tfFile rs).take n))
        ((rs.take k).map (fun r => .ok r.data) ++
          if n = (tfFile (rs.take k)).length ∨ k = rs.length then [] else [.error .valueError]) true := by
  obtain ⟨k, tail, hk, hle, hmax, hfile, htail, hiff⟩ := tf_cut hv n
  refine ⟨k, hk, hle, hmax, ?_⟩
  have h := tf_resumes (rs := rs.take k) (fun r hr => hv r (List.mem_of_mem_take hr)) tail htail
  rw [hfile]
  by_cases ht : tail = []
  · rw [if_pos ht] at h
    rw [if_pos (hiff.1 ht)]
    exact h.exactly
  · rw [if_neg ht] at h
    rw [if_neg (fun hc => ht (hiff.2 hc))]
    exact h.exactly

/-- Three records, the second one empty. -/
def threeRecords : List TfRecord :=
  [⟨[7, 8, 9], [1, 1, 1, 1], [2, 2, 2, 2]⟩, ⟨[], [3, 3, 3, 3], [4, 4, 4, 4]⟩, ⟨[10], [5, 5, 5, 5], [6, 6, 6, 6]⟩]

theorem threeRecords_valid : ∀ r ∈ threeRecords, r.Valid := by
  intro r hr
  simp only [threeRecords, List.mem_cons, List.not_mem_nil, or_false] at hr
  rcases hr with rfl | rfl | rfl <;> exact ⟨by decide, rfl, rfl⟩

example : ResumesExactly (tfRecordIter (tfFile threeRecords)) [.ok [7, 8, 9], .ok [], .ok [10]] true :=
  tfrecord_reads_records threeRecords_valid

-- cut in the middle of the third record
example : implRun (tfRecordIter ((tfFile threeRecords).take 48)) 0 (0 : Nat) [] [.next, .next, .next, .next] =
    some [.item [7, 8, 9], .item [], .fail .valueError, .stop] := rfl

/-- Damaged files are not noticed: the checksums are not looked at (a TODO in the code).  In this file a byte of the first
length is changed from 3 to 19: the first "record" returned contains the stored lengths and checksums of the following record. -/
theorem tfrecord_damage_unnoticed :
    implRun (tfRecordIter (19 :: (tfFile threeRecords).drop 1)) 0 (0 : Nat) [] [.next, .next, .next] =
      some [.item [7, 8, 9, 2, 2, 2, 2, 0, 0, 0, 0, 0, 0, 0, 0, 3, 3, 3, 3], .item [10], .stop] := by
  rfl

/-- A damaged length of `2^63` or more raises `OverflowError`, and the next calls go on inside the record: all other records are lost. -/
theorem tfrecord_damaged_length_overflow :
    implRun (tfRecordIter ([3, 0, 0, 0, 0, 0, 0, 128] ++ (tfFile threeRecords).drop 8)) 0 (0 : Nat) [] [.next, .next, .next] =
      some [.fail .overflowError, .fail .valueError, .stop] := by
  rfl

/-! ### C61 -/

/-- C61: iterating a Parquet file (with at least one row group; row groups may be empty) yields exactly its rows, row group by row
group, and checkpoints taken at any point resume exactly, under every history of calls. -/
theorem parquet_reads_rows {groups : List (PqTable V)} (hne : groups ≠ []) (hv : ∀ t ∈ groups, t.Valid) :
    ∃ it, pqOpen groups = .ok it ∧ ResumesExactly it ((pqRows groups).map Except.ok) true := by
  cases hr : pqRead groups 0 0 with
  | error e =>
    cases groups with
    | nil => exact absurd rfl hne
    | cons t l => simp [pqRead] at hr
  | ok s => exact ⟨pqIterAt groups s, by simp [pqOpen, hr, Except.map], (pq_resumes hv hr).exactly⟩

theorem getD_of_lt {l : List β} {b : β} {d : Nat} (hd : d < l.length) : l.getD d b = l[d] := by
  simp [List.getD, hd]

/-- C61, several files: all rows of all files are returned, exactly once, each file's rows in order, and checkpoints restored into a
new iterator resume exactly (restores into used ones: see C27). -/
theorem parquet_files_read_rows {files : List (List (PqTable V))} (hf : files ≠ []) (hne : ∀ g ∈ files, g ≠ [])
    (hv : ∀ g ∈ files, ∀ t ∈ g, t.Valid) :
    ∃ tagged : List (Nat × Py (List (String × V))),
      ResumesExactlyWhen (fun _ => false) (pqInterleave files) (tagged.map (·.2)) true ∧
      (∀ d r, (d, r) ∈ tagged → d < files.length) ∧
      (∀ d (hd : d < files.length), (tagged.filter (fun q => q.1 = d)).map (·.2) = (pqRows files[d]).map Except.ok) := by
  obtain ⟨tagged, _, h2, h3, h4, _⟩ := interleave_elements (f := pqFam files) (n := files.length) (cycle := 16) false
    (xs := fun d => (pqRows (files.getD d [])).map Except.ok) (List.length_pos_iff.2 hf) (by decide) (by
      intro d hd
      have hmem : files.getD d [] ∈ files := by
        rw [getD_of_lt hd]
        exact List.getElem_mem hd
      cases hr : pqRead (files.getD d []) 0 0 with
      | error e =>
        have := hne _ hmem
        cases hg : files.getD d [] with
        | nil => exact absurd hg this
        | cons t l => rw [hg] at hr; simp [pqRead] at hr
      | ok s =>
        have h := (pq_resumes (hv _ hmem) hr).fresh
        have he : (pqFam files).iter d = pqIterAt (files.getD d []) s := by
          simp only [IterFam.iter, pqFam, pqIterAt, hr]
          rfl
        rw [he]
        exact h)
  refine ⟨tagged, h2, h3, ?_⟩
  intro d hd
  rw [h4 d hd, getD_of_lt hd]

/-- Three row groups, one of them empty. -/
def threeGroups : List (PqTable Nat) :=
  [⟨2, [("a", [1, 2]), ("b", [10, 20])]⟩, ⟨0, [("a", []), ("b", [])]⟩, ⟨1, [("a", [3]), ("b", [30])]⟩]

theorem threeGroups_valid : ∀ t ∈ threeGroups, t.Valid := by
  intro t ht
  simp only [threeGroups, List.mem_cons, List.not_mem_nil, or_false] at ht
  rcases ht with rfl | rfl | rfl <;> exact ⟨by decide, by decide⟩

example : ∃ it, pqOpen threeGroups = .ok it ∧ ResumesExactly it
    [.ok [("a", 1), ("b", 10)], .ok [("a", 2), ("b", 20)], .ok [("a", 3), ("b", 30)]] true :=
  parquet_reads_rows (by decide) threeGroups_valid

example : ∃ tagged : List (Nat × Py (List (String × Nat))),
    ResumesExactlyWhen (fun _ => false) (pqInterleave [threeGroups, threeGroups.drop 2]) (tagged.map (·.2)) true ∧
    (tagged.filter (fun q => q.1 = 1)).map (·.2) = [.ok [("a", 3), ("b", 30)]] :=
  (fun ⟨t, h1, _, h3⟩ => ⟨t, h1, h3 1 (by decide)⟩) <| parquet_files_read_rows (files := [threeGroups, threeGroups.drop 2]) (by decide) (by decide) (by
    intro g hg t ht
    simp only [List.mem_cons, List.not_mem_nil, or_false] at hg
    rcases hg with rfl | rfl
    · exact threeGroups_valid t ht
    · exact threeGroups_valid t (List.mem_of_mem_drop ht))

/-- A file without row groups cannot be iterated: opening it raises instead of giving an empty iteration. -/
theorem parquet_no_row_groups : pqOpen ([] : List (PqTable V)) = .error .valueError := rfl

/-- Two columns with the same name: only the last one is returned. -/
theorem parquet_duplicate_columns :
    ∃ it, pqOpen [⟨1, [("a", [1]), ("b", [5]), ("a", [2])]⟩] = .ok it ∧
      implRun it 2 it.init [] [.next] = some [.item [("a", 2), ("b", 5)]] := ⟨_, rfl, rfl⟩

/-- More workers than files: a worker's slice of the paths is empty (`paths[w::workers]`), and its first `next` raises
`IndexError` instead of `StopIteration`. -/
theorem parquet_no_files (F : Nat) :
    implRun (pqInterleave ([] : List (List (PqTable V)))) F (pqInterleave []).init [] [.next] = some [.fail .indexError] :=
  interleave_no_datasets _ _ _ F

end Grain
