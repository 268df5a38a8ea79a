import Verif.Proofs.DiffApply
import Verif.Proofs.DiffCut
import Mathlib.Data.List.Forall2
import Verif.Props.Chunked
/-!
# Properties C09 to C12: RBD diff streams

`Spec.Diff` with `encode` is the byte format, `Describes` says what it means that a diff leads from
one image to another.  `Diff.decode` and `Diff.integrate` model the code.
-/
namespace Verif.Diff
open Verif Verif.Chunked Verif.Spec

/-- The yielded record is the encoded metadata record. -/
def SameMeta : MetaRec → Rec → Prop
  | .fromSnap b, r => r = .fromSnap b
  | .toSnap b, r => r = .toSnap b
  | .size n, r => r = .size n

/-- The yielded record is the encoded data record; the payload arrives in pieces of at most `blk`
bytes. -/
def SameData (blk : Nat) : DataRec → Rec → Prop
  | .zero o l, r => r = .zero o l
  | .data o p, r => ∃ chunks, r = .data o p.length chunks ∧ chunks.flatten = p ∧
      ∀ x ∈ chunks, x.length ≤ blk ∧ x ≠ []

/-- **C09** Decoding the byte stream of a well-formed diff yields exactly its records, in order and
without an error. -/
theorem C09_decode_exact (env : Env) (d : Diff) (hv : d.Valid) :
    (decode env d.encode).2 = none ∧
    ∃ ms ds, (decode env d.encode).1 = ms ++ ds ∧ List.Forall₂ SameMeta d.metas ms ∧
      List.Forall₂ (SameData env.blk) d.datas ds := by
  obtain ⟨fuel, hfuel, hdec⟩ := decode_datas env d hv [101]
  have henc : d.encode = diffHeader ++ encMetas d.metas ++ encDatas d.datas ++ [101] := rfl
  rw [← henc] at hdec
  have hend : ∀ phase, readRecords env fuel phase [101] = ([], none) := by
    intro phase
    obtain ⟨k, rfl⟩ : ∃ k, fuel = k + 1 := ⟨fuel - 1, by simp at hfuel; omega⟩
    simp [readRecords, readRecord]
  rw [hend, List.append_nil] at hdec
  rw [hdec]
  refine ⟨rfl, _, _, rfl, ?_, ?_⟩
  · rw [List.forall₂_map_right_iff]
    refine List.forall₂_same.2 ?_
    intro m _; cases m <;> rfl
  · rw [List.forall₂_map_right_iff]
    refine List.forall₂_same.2 ?_
    intro m _
    cases m with
    | zero o l => rfl
    | data o p => exact ⟨_, rfl, pieces_flatten env.blk env.blk_pos p⟩

/-- **C10** A diff stream that ends early, at any byte before its end, is never integrated
successfully, whatever the target is. -/
theorem C10_truncated_rejected (env : Env) (d : Diff) (hv : d.Valid) (k : Nat) (hk : k < d.encode.length)
    (snapFrom snapTo : Bytes) (s : S) : ∃ e,
    (integrate env (d.encode.take k) snapFrom snapTo s).1 = .error e := by
  have := integrate_decode_error env _ snapFrom snapTo s (decode_cut env d hv k hk)
  cases h : (integrate env (d.encode.take k) snapFrom snapTo s).1 with
  | error e => exact ⟨e, rfl⟩
  | ok u => exact absurd h this

/-- **C11** Integrating a diff that describes the change from `old` to `new` into an image with content
`old`, opened for writing, succeeds, and closing the image leaves exactly `new` under its name, as
seen by any later process with any operations. -/
theorem C11_integrate_new (env : Env) (w : World) (name : String) (mode : Mode) (old new : Bytes) (s : S)
    (h : Opened env w name mode old s) (hw : mode.w = true)
    (d : Diff) (hv : d.Valid) (snapFrom snapTo : Bytes) (hd : d.Describes snapFrom snapTo old new)
    (hcoll : CollFree env.H ((integrate env d.encode snapFrom snapTo s).2.close env).2.w.log) :
    (integrate env d.encode snapFrom snapTo s).1 = .ok () ∧
    ((integrate env d.encode snapFrom snapTo s).2.close env).1 = .ok () ∧
    OnDisk env ((integrate env d.encode snapFrom snapTo s).2.close env).2.w name new ∧
    ∀ mode', ∃ f, File.open ((integrate env d.encode snapFrom snapTo s).2.close env).2.w.fresh name mode' = .ok f ∧
      ∀ ops, CollFree env.H (f.run env ops).w.log → f.trace env ops = (flatOpen mode' new).trace ops := by
  obtain ⟨hR, _, hn⟩ := h.R
  have hR' : Rw env s old (if mode.a then old.length else 0) mode.r := by
    have : flatOpen mode old = ⟨old, if mode.a then old.length else 0, mode.r, true, false⟩ := by
      simp [flatOpen, hw]
    rw [this] at hR; exact hR
  obtain ⟨s1, p1, e1, e2, e3, e4⟩ := integrate_ok hcoll d hv snapFrom snapTo old new hd hR' (S.close_log env _)
  rw [e1] at hcoll ⊢
  obtain ⟨s2, g1, g2, g3, g4⟩ := close_ok hcoll e2 rfl rfl (fun _ hx => hx)
  rw [e4, hn] at g3
  rw [g1]
  refine ⟨rfl, rfl, g3, fun mode' => ?_⟩
  have hwok : WOK env s2.w.fresh := ⟨g2.good, by intro x hx; simp [World.fresh] at hx⟩
  obtain ⟨f, f1, f2, f3, f4⟩ := open_ok hwok (show OnDisk env s2.w.fresh name _ from g3) mode'
  exact ⟨f, f1, fun ops hc => (run_ok hc ops f4 (fun _ hx => hx)).2.1⟩

/-- **C12** A stream that names another from- or to-snapshot is rejected, whatever follows. -/
theorem C12_wrong_snapshot (env : Env) (l : List MetaRec) (hv : ∀ m ∈ l, m.Valid) (rest : Bytes)
    (snapFrom snapTo b : Bytes)
    (hb : (MetaRec.fromSnap b ∈ l ∧ b ≠ snapFrom) ∨ (MetaRec.toSnap b ∈ l ∧ b ≠ snapTo)) (s : S) : ∃ e,
    (integrate env (diffHeader ++ encMetas l ++ rest) snapFrom snapTo s).1 = .error e := by
  have : (integrate env (diffHeader ++ encMetas l ++ rest) snapFrom snapTo s).1 ≠ .ok () := by
    rcases hb with ⟨h1, h2⟩ | ⟨h1, h2⟩
    · exact integrate_rec_error env _ _ _ s _ (decode_meta_mem env l hv rest _ h1)
        (fun s => ⟨.assertion, by simp [MetaRec.rec, applyRec, h2]⟩)
    · exact integrate_rec_error env _ _ _ s _ (decode_meta_mem env l hv rest _ h1)
        (fun s => ⟨.assertion, by simp [MetaRec.rec, applyRec, h2]⟩)
  cases h : (integrate env (diffHeader ++ encMetas l ++ rest) snapFrom snapTo s).1 with
  | error e => exact ⟨e, rfl⟩
  | ok u => exact absurd h this

/-- **C12** A stream with an unknown record type after any number of correct records is rejected,
whatever follows. -/
theorem C12_unknown_record (env : Env) (d : Diff) (hv : d.Valid) (b : UInt8) (rest : Bytes)
    (hb : b ∉ ([102, 116, 115, 119, 122, 101] : List UInt8)) (snapFrom snapTo : Bytes) (s : S) : ∃ e,
    (integrate env (diffHeader ++ encMetas d.metas ++ encDatas d.datas ++ b :: rest) snapFrom snapTo s).1 =
      .error e := by
  have := integrate_decode_error env _ snapFrom snapTo s (decode_bad_type env d hv b rest hb)
  cases h : (integrate env (diffHeader ++ encMetas d.metas ++ encDatas d.datas ++ b :: rest) snapFrom snapTo s).1 with
  | error e => exact ⟨e, rfl⟩
  | ok u => exact absurd h this

/-- **C12** A stream with a metadata record after a data record is rejected, whatever follows. -/
theorem C12_late_metadata (env : Env) (d : Diff) (hv : d.Valid) (hne : d.datas ≠ []) (b : UInt8) (rest : Bytes)
    (hb : b ∈ ([102, 116, 115] : List UInt8)) (snapFrom snapTo : Bytes) (s : S) : ∃ e,
    (integrate env (diffHeader ++ encMetas d.metas ++ encDatas d.datas ++ b :: rest) snapFrom snapTo s).1 =
      .error e := by
  have := integrate_decode_error env _ snapFrom snapTo s (decode_late_meta env d hv hne b rest hb)
  cases h : (integrate env (diffHeader ++ encMetas d.metas ++ encDatas d.datas ++ b :: rest) snapFrom snapTo s).1 with
  | error e => exact ⟨e, rfl⟩
  | ok u => exact absurd h this

theorem readFbytes_negative (n : Nat) (h1 : 2 ^ 31 ≤ n) (h2 : n < 2 ^ 32) (rest : Bytes) :
    (∃ e, readFbytes (le 4 n ++ rest) = .error e) ∨ ∃ b, readFbytes (le 4 n ++ rest) = .ok (b, []) := by
  unfold readFbytes
  have e : (256:Nat) ^ 4 = 2 ^ 32 := by norm_num
  rw [unpack_le 4 _ (by omega)]
  dsimp only
  rw [if_neg (by omega)]
  split
  · split
    · exact .inr ⟨rest, rfl⟩
    · exact .inl ⟨_, rfl⟩
  · exact .inl ⟨_, rfl⟩

/-- **C12** A stream with a negative length of a snapshot name (32 bits, two's complement) is rejected, whatever follows. -/
theorem C12_negative_length (env : Env) (l : List MetaRec) (hv : ∀ m ∈ l, m.Valid) (b : UInt8) (hb : b = 102 ∨ b = 116) (n : Nat)
    (h1 : 2 ^ 31 ≤ n) (h2 : n < 2 ^ 32) (rest : Bytes) (snapFrom snapTo : Bytes) (s : S) : ∃ e,
    (integrate env (diffHeader ++ encMetas l ++ (b :: (le 4 n ++ rest))) snapFrom snapTo s).1 = .error e := by
  have hd : (decode env (diffHeader ++ encMetas l ++ (b :: (le 4 n ++ rest)))).2 ≠ none := by
    obtain ⟨fuel, hf, he⟩ := decode_metas env l hv (b :: (le 4 n ++ rest))
    rw [he]
    obtain ⟨k, rfl⟩ : ∃ k, fuel = k + 2 := ⟨fuel - 2, by simp only [List.length_cons, List.length_append, le_length] at hf; omega⟩
    dsimp only
    rw [readRecords]
    rcases hb with rfl | rfl <;> rcases readFbytes_negative n h1 h2 rest with ⟨e, h⟩ | ⟨x, h⟩ <;>
      simp [readRecord, h, readRecords]
  have := integrate_decode_error env _ snapFrom snapTo s hd
  cases h : (integrate env (diffHeader ++ encMetas l ++ (b :: (le 4 n ++ rest))) snapFrom snapTo s).1 with
  | error e => exact ⟨e, rfl⟩
  | ok u => exact absurd h this

/-- **C12** A stream that does not start with the header is rejected. -/
theorem C12_bad_header (env : Env) (stream : Bytes) (h : stream.take diffHeader.length ≠ diffHeader)
    (snapFrom snapTo : Bytes) (s : S) :
    (integrate env stream snapFrom snapTo s).1 = .error .value := by
  have : decode env stream = ([], some .value) := by
    unfold decode
    rw [if_pos]
    exact h
  simp [integrate, this, applyRecs]

/-! ### Concrete case -/

/-- From `1 2 3 4 5 6` to `1 0 0 4 7 8 9`. -/
def exampleDiff : Diff :=
  { metas := [.fromSnap [97], .toSnap [98], .size 7],
    datas := [.data 4 [7, 8, 9], .zero 1 2] }

theorem exampleDiff_valid : exampleDiff.Valid := by
  constructor
  · intro m hm
    simp only [exampleDiff, List.mem_cons, List.not_mem_nil, or_false] at hm
    rcases hm with rfl | rfl | rfl
    · exact ⟨by decide, by decide⟩
    · exact ⟨by decide, by decide⟩
    · show 7 < 2 ^ 64; decide
  · intro m hm
    simp only [exampleDiff, List.mem_cons, List.not_mem_nil, or_false] at hm
    rcases hm with rfl | rfl
    · exact ⟨by decide, by decide⟩
    · exact ⟨by decide, by decide⟩

theorem exampleDiff_describes : exampleDiff.Describes [97] [98] [1, 2, 3, 4, 5, 6] [1, 0, 0, 4, 7, 8, 9] := by
  refine ⟨?_, ?_, by decide, ?_, ?_, ?_⟩
  · intro b hb; simpa [exampleDiff] using hb
  · intro b hb; simpa [exampleDiff] using hb
  · intro b hb; simpa [exampleDiff] using hb
  · intro m hm
    simp only [exampleDiff, List.mem_cons, List.not_mem_nil, or_false] at hm
    rcases hm with rfl | rfl
    · refine ⟨by decide, ?_⟩
      intro i hi
      have : i = 0 ∨ i = 1 ∨ i = 2 := by simp at hi; omega
      rcases this with rfl | rfl | rfl <;> rfl
    · refine ⟨by decide, by decide, ?_⟩
      intro i hi
      have : i = 0 ∨ i = 1 := by omega
      rcases this with rfl | rfl <;> rfl
  · intro p hp hne
    have : p = 0 ∨ p = 1 ∨ p = 2 ∨ p = 3 ∨ p = 4 ∨ p = 5 ∨ p = 6 := by simp at hp; omega
    rcases this with rfl | rfl | rfl | rfl | rfl | rfl | rfl
    · exact absurd rfl hne
    · exact ⟨.zero 1 2, by simp [exampleDiff], by simp [DataRec.Covers]⟩
    · exact ⟨.zero 1 2, by simp [exampleDiff], by simp [DataRec.Covers]⟩
    · exact absurd rfl hne
    · exact ⟨.data 4 [7, 8, 9], by simp [exampleDiff], by simp [DataRec.Covers]⟩
    · exact ⟨.data 4 [7, 8, 9], by simp [exampleDiff], by simp [DataRec.Covers]⟩
    · exact ⟨.data 4 [7, 8, 9], by simp [exampleDiff], by simp [DataRec.Covers]⟩

/-- The example diff can be integrated into the stored image "b". -/
example : ∃ s, Opened Test.env storedWorld "b" ⟨false, true, false⟩ [1, 2, 3, 4, 5, 6] s :=
  ⟨_, storedWorld_ok, .inl storedWorld_b, rfl⟩

/-! ### Every theorem of this file applied to the diff above -/

/-- C09_decode_exact -/
example := C09_decode_exact Test.env exampleDiff exampleDiff_valid

/-- C10_truncated_rejected: the diff without its last byte (the end marker). -/
example := C10_truncated_rejected Test.env exampleDiff exampleDiff_valid (exampleDiff.encode.length - 1) (by decide +kernel)
  [97] [98] newImage

/-- C11_integrate_new: the stored image of six bytes becomes the one of seven. -/
example (s : S) (h : Opened Test.env storedWorld "b" ⟨false, true, false⟩ [1, 2, 3, 4, 5, 6] s) :=
  C11_integrate_new Test.env storedWorld "b" ⟨false, true, false⟩ _ _ s h rfl exampleDiff exampleDiff_valid [97] [98]
    exampleDiff_describes (Test.collFree _)

/-- C12_wrong_snapshot: the diff starts at snapshot `a`, expected is `c`. -/
example := C12_wrong_snapshot Test.env exampleDiff.metas exampleDiff_valid.1 [101] [99] [98] [97]
  (.inl ⟨by decide, by decide⟩) newImage

/-- C12_unknown_record, C12_late_metadata: record types `x` and `s` after the data. -/
example := C12_unknown_record Test.env exampleDiff exampleDiff_valid 120 [1, 2] (by decide) [97] [98] newImage
example := C12_late_metadata Test.env exampleDiff exampleDiff_valid (by decide) 115 [1, 2] (by decide) [97] [98] newImage

/-- C12_negative_length: the name of a snapshot of length -1. -/
example := C12_negative_length Test.env [.size 7] (by intro m hm; cases hm with
  | head => show 7 < 2 ^ 64; decide
  | tail _ h => cases h) 102 (.inl rfl) (2 ^ 32 - 1) (by decide) (by decide) [97] [97] [98] newImage

/-- C12_bad_header -/
example := C12_bad_header Test.env [114, 98, 100] (by decide +kernel) [97] [98] newImage

end Verif.Diff
