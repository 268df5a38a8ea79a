import Verif.Proofs.Files
import Verif.Props.Chunked
/-!
# Properties C20 to C23: restoring, overwriting and comparing files

The hypotheses `WOK`, `OnDisk` say that the store is intact and holds an image with the given content
under the revision's name (what every completed backup guarantees, C13).
-/
namespace Verif.Files
open Verif Verif.Chunked Verif.Spec Verif.Rbd Verif.Repo

/-- **C20** Restoring to a file that did not exist or held anything leaves exactly the content. -/
theorem C20_restore_file (env : Env) (w : World) (r : Rev) (c : Bytes) (hw : WOK env w)
    (hd : OnDisk env w r.uuid c) (hcoll : CollFree env.H w.log) (target : Option Bytes) :
    restore env w r target = (.ok (), some c) := by
  obtain ⟨s, h1, h2⟩ := Rd.open hw hd
  unfold restore
  rw [h1]
  dsimp only
  obtain ⟨s', h3, _⟩ := copy_ok hcoll h2 (target.getD [])
  unfold restoreFile
  rw [h3]

/-- **C20** Restoring to standard output emits exactly the content. -/
theorem C20_restore_stdout (env : Env) (w : World) (r : Rev) (c : Bytes) (hw : WOK env w)
    (hd : OnDisk env w r.uuid c) (hcoll : CollFree env.H w.log) :
    restoreOut env w r = (.ok (), c) := by
  obtain ⟨s, h1, h2⟩ := Rd.open hw hd
  unfold restoreOut
  rw [h1]
  dsimp only
  obtain ⟨s', h3⟩ := stdoutLoop_ok hcoll (s.f.size + 1) [] h2 (Nat.zero_le _) (by rw [h2.size]; omega)
  unfold restoreStdout
  rw [h3]
  simp

/-- **C21** Whatever the target held, afterwards it is the source, and every region that was written
or punched is an aligned block in which source and old target differed. -/
theorem C21_copy_overwrite (ps : Nat) (hps : 0 < ps) (falloc : Bool) (source target : PFile) :
    ∃ t touched, copyOverwrite ps falloc source target = .ok (t, touched) ∧ t.content = source.content ∧
      ∀ r ∈ touched, r.1 % ps = 0 ∧ r.2 = min ps (source.content.length - r.1) ∧ 0 < r.2 ∧
        (source.content.drop r.1).take r.2 ≠ (target.content.drop r.1).take r.2 :=
  copyOverwrite_ok hps falloc source target

/-- **C22** The full comparison answers "equal" exactly for equal contents, and every mismatch it
reports is a block that differs, at the reported offset. -/
theorem C22_files_are_equal (cs : Nat) (hcs : 0 < cs) (a b : Bytes) :
    ∃ res reports, filesAreEqual cs ⟨a, 0⟩ ⟨b, 0⟩ = .ok (res, reports) ∧
      (res = true ↔ a = b) ∧ (res = false → reports ≠ []) ∧
      ∀ m ∈ reports, m.1 ≠ m.2.1 ∧ m.1 = (a.drop m.2.2).take cs ∧ m.2.1 = (b.drop m.2.2).take cs := by
  obtain ⟨new, h1, h2, h3, _⟩ := equalLoop_ok cs hcs (a.length + 1) a b 0 0 0 [] (by omega) (by simp) (by simp)
  unfold filesAreEqual
  dsimp only
  rw [h1]
  rw [List.nil_append]
  refine ⟨decide (new.length = 0), new, rfl, ?_, ?_, ?_⟩
  · rw [decide_eq_true_iff]
    constructor
    · intro h
      simpa using h3 (List.length_eq_zero_iff.1 h)
    · intro h
      subst h
      cases new with
      | nil => rfl
      | cons m l =>
        obtain ⟨g1, g2, g3, _⟩ := h2 m (by simp)
        rw [g2, g3] at g1
        exact absurd rfl g1
  · intro h hn
    subst hn
    simp at h
  · intro m hm
    obtain ⟨g1, g2, g3, _⟩ := h2 m hm
    exact ⟨g1, g2, g3⟩

/-- **C23** An intact image of the source is accepted, for every sample and every clock. -/
theorem C23_equal_accepted_partial (env : Env) (w : World) (name : String) (a : Bytes) (hw : WOK env w)
    (hd : OnDisk env w name a) (hcoll : CollFree env.H w.log) (n bs : Nat) (hbs : 0 < bs) (expired : Nat → Bool)
    (sample : List Nat) (hs : ValidSample n bs a.length sample) :
    ∃ s, File.open w name rb = .ok s ∧
      (filesAreRoughlyEqual env bs expired sample a s).1 = .ok (true, []) := by
  obtain ⟨s, h1, h2⟩ := Rd.open hw hd
  refine ⟨s, h1, ?_⟩
  obtain ⟨s', h3, _⟩ := roughLoop_true hcoll bs expired a sample 0 ⟨a, a.length⟩ h2 rfl (by
    intro b hb
    refine ⟨?_, rfl⟩
    have hlt := hs.range b hb
    unfold sampleBlocks at hlt
    by_cases h0 : a.length / bs = 0
    · have : b = 0 := by omega
      subst this; simp
    · have hb' : b + 1 ≤ a.length / bs := by
        generalize a.length / bs = q at *
        omega
      have := Nat.mul_le_mul_right bs hb'
      have h4 : a.length / bs * bs ≤ a.length := Nat.div_mul_le_self _ _
      have h5 : (b + 1) * bs = b * bs + bs := by ring
      omega)
  unfold filesAreRoughlyEqual
  rw [h3]

/-- **C23** If a block that is examined before the time limit differs between the source and the
stored image, the answer is "different" and what is reported is an examined block that differs, with its
offset. -/
theorem C23_difference_reported_partial (env : Env) (w : World) (name : String) (a c : Bytes) (hw : WOK env w)
    (hd : OnDisk env w name c) (hcoll : CollFree env.H w.log) (bs : Nat) (expired : Nat → Bool)
    (sample : List Nat) (hle : ∀ b ∈ sample, b * bs ≤ c.length)
    (k b : Nat) (hk : sample[k]? = some b) (htime : ∀ j ≤ k, expired j = false)
    (hdiff : (a.drop (b * bs)).take bs ≠ (c.drop (b * bs)).take bs) :
    ∃ s b', File.open w name rb = .ok s ∧
      (filesAreRoughlyEqual env bs expired sample a s).1 =
        .ok (false, [((a.drop (b' * bs)).take bs, (c.drop (b' * bs)).take bs, b' * bs)]) ∧
      b' ∈ sample.take (k + 1) ∧ (a.drop (b' * bs)).take bs ≠ (c.drop (b' * bs)).take bs := by
  obtain ⟨s, h1, h2⟩ := Rd.open hw hd
  obtain ⟨s', b', h3, h4, h5⟩ := roughLoop_report hcoll bs expired a sample 0 ⟨a, a.length⟩ h2 rfl hle k b hk
    (by simpa using htime) hdiff
  refine ⟨s, b', h1, ?_, h4, h5⟩
  unfold filesAreRoughlyEqual
  rw [h3]
  rfl

/-- **C23** Whatever the stored image is (even one that is too short), an answer "equal" means that every
block examined before the time limit was equal. -/
theorem C23_accepted_sound_partial (env : Env) (w : World) (name : String) (a c : Bytes) (hw : WOK env w)
    (hd : OnDisk env w name c) (hcoll : CollFree env.H w.log) (bs : Nat) (expired : Nat → Bool)
    (sample : List Nat) (s : S) (hs : File.open w name rb = .ok s) (l : List Mismatch)
    (hres : (filesAreRoughlyEqual env bs expired sample a s).1 = .ok (true, l))
    (k b : Nat) (hk : sample[k]? = some b) (htime : ∀ j ≤ k, expired j = false) :
    (a.drop (b * bs)).take bs = (c.drop (b * bs)).take bs := by
  obtain ⟨s1, h1, h2⟩ := Rd.open hw hd
  rw [hs] at h1
  cases h1
  unfold filesAreRoughlyEqual at hres
  exact roughLoop_sound hcoll bs expired a sample 0 ⟨a, a.length⟩ l h2 rfl
    (Prod.ext hres rfl : roughLoop env bs expired sample 0 ⟨a, a.length⟩ s = (.ok (true, l), _)) k b hk
    (by simpa using htime)

/-- **C23** Every byte in a complete block of the source (every byte at all if the source is smaller than one
block) is examined by some sample. -/
theorem C23_every_full_block_sampled_partial (bs size : Nat) (i : Nat) (hi : i < size)
    (hfull : i < size / bs * bs ∨ size < bs) :
    ∃ sample b, ValidSample 1 bs size sample ∧ b ∈ sample ∧ b * bs ≤ i ∧ i < b * bs + bs := by
  rcases hfull with h | h
  · have hbs : 0 < bs := by
      rcases Nat.eq_zero_or_pos bs with h0 | h0
      · subst h0; simp at h
      · exact h0
    have hlt : i / bs < size / bs := by
      rw [Nat.div_lt_iff_lt_mul hbs]; exact h
    refine ⟨[i / bs], i / bs, ⟨?_, by simp, rfl⟩, by simp, Nat.div_mul_le_self _ _, ?_⟩
    · intro b hb
      simp only [List.mem_singleton] at hb
      subst hb
      unfold sampleBlocks
      omega
    · have := Nat.div_add_mod i bs
      have h2 := Nat.mod_lt i hbs
      have h3 : bs * (i / bs) = i / bs * bs := Nat.mul_comm _ _
      omega
  · refine ⟨[0], 0, ⟨?_, by simp, rfl⟩, by simp, by omega, by omega⟩
    intro b hb
    simp only [List.mem_singleton] at hb
    subst hb
    unfold sampleBlocks
    omega

/-- **C23 is false of the code** for the last, incomplete block of a source of at least one block: no
sample ever contains it.  A stored image that agrees on the complete blocks is accepted by every
sample, whatever its tail is. -/
theorem C23_false_tail_never_examined (env : Env) (w : World) (name : String) (a c : Bytes) (hw : WOK env w)
    (hd : OnDisk env w name c) (hcoll : CollFree env.H w.log) (n bs : Nat) (hbig : bs ≤ a.length) (hbs : 0 < bs)
    (heq : c.take (a.length / bs * bs) = a.take (a.length / bs * bs)) (hlen : a.length / bs * bs ≤ c.length)
    (expired : Nat → Bool) (sample : List Nat) (hs : ValidSample n bs a.length sample) :
    ∃ s, File.open w name rb = .ok s ∧
      (filesAreRoughlyEqual env bs expired sample a s).1 = .ok (true, []) := by
  obtain ⟨s, h1, h2⟩ := Rd.open hw hd
  refine ⟨s, h1, ?_⟩
  have hle : a.length / bs * bs ≤ a.length := Nat.div_mul_le_self _ _
  have hpos : 0 < a.length / bs := Nat.div_pos hbig hbs
  obtain ⟨s', h3, _⟩ := roughLoop_true hcoll bs expired a sample 0 ⟨a, a.length⟩ h2 rfl (by
    intro b hb
    have hlt := hs.range b hb
    unfold sampleBlocks at hlt
    have hb' : b + 1 ≤ a.length / bs := by omega
    have h5 := Nat.mul_le_mul_right bs hb'
    have h6 : (b + 1) * bs = b * bs + bs := by ring
    refine ⟨by omega, ?_⟩
    have key : ∀ x : Bytes, blockOf bs x b = ((x.take (a.length / bs * bs)).drop (b * bs)).take bs := by
      intro x
      unfold blockOf
      rw [List.drop_take, List.take_take, Nat.min_eq_left (by omega)]
    rw [key a, key c, heq])
  unfold filesAreRoughlyEqual
  rw [h3]

/-! ### Concrete cases -/

example : restore Test.env storedWorld ⟨"b", 5, [("duration", 1)], .trusted, ∅, ∅, ""⟩ (some [9, 9, 9, 9, 9, 9, 9, 9, 9]) =
    (.ok (), some [1, 2, 3, 4, 5, 6]) :=
  C20_restore_file _ _ _ _ storedWorld_ok storedWorld_b (Test.collFree _) _

/-- A source of two blocks and a half, whose stored copy differs in the half block: accepted. -/
example : ∃ s, File.open storedWorld "b" rb = .ok s ∧
    (filesAreRoughlyEqual Test.env 4 (fun _ => false) [0] [1, 2, 3, 4, 7] s).1 = .ok (true, []) :=
  C23_false_tail_never_examined Test.env storedWorld "b" [1, 2, 3, 4, 7] [1, 2, 3, 4, 5, 6] storedWorld_ok storedWorld_b
    (Test.collFree _) 1 4 (by decide) (by decide) rfl (by decide) _ [0]
    ⟨by simp [sampleBlocks], by simp, rfl⟩

example : ∃ s b', File.open storedWorld "b" rb = .ok s ∧
    (filesAreRoughlyEqual Test.env 4 (fun _ => false) [0] [1, 2, 3, 7, 7] s).1 =
      .ok (false, [(([1, 2, 3, 7, 7] : Bytes).drop (b' * 4) |>.take 4, ([1, 2, 3, 4, 5, 6] : Bytes).drop (b' * 4) |>.take 4, b' * 4)]) := by
  obtain ⟨s, b', h1, h2, _⟩ := C23_difference_reported_partial Test.env storedWorld "b" [1, 2, 3, 7, 7] [1, 2, 3, 4, 5, 6]
    storedWorld_ok storedWorld_b (Test.collFree _) 4 (fun _ => false) [0] (by simp) 0 0 rfl (by simp) (by decide)
  exact ⟨s, b', h1, h2⟩

/-- C20_restore_stdout -/
example := C20_restore_stdout Test.env storedWorld ⟨"b", 5, [("duration", 1)], .trusted, ∅, ∅, ""⟩ _ storedWorld_ok storedWorld_b
  (Test.collFree _)

/-- C21_copy_overwrite: a longer target with a differing page. -/
example := C21_copy_overwrite 4 (by decide) true ⟨[1, 2, 3, 4, 5, 6], 0⟩ ⟨[1, 2, 3, 4, 9, 9, 9, 9, 9], 0⟩

/-- C22_files_are_equal -/
example := C22_files_are_equal 4 (by decide) [1, 2, 3, 4, 5, 6] [1, 2, 3, 4, 5, 7]

/-- C23_equal_accepted_partial -/
example := C23_equal_accepted_partial Test.env storedWorld "b" _ storedWorld_ok storedWorld_b (Test.collFree _) 1 4 (by decide)
  (fun _ => false) [0] ⟨by simp [sampleBlocks], by simp, rfl⟩

/-- C23_accepted_sound_partial -/
example (s : S) (hs : File.open storedWorld "b" rb = .ok s)
    (h : (filesAreRoughlyEqual Test.env 4 (fun _ => false) [0] [1, 2, 3, 4, 7] s).1 = .ok (true, [])) :=
  C23_accepted_sound_partial Test.env storedWorld "b" [1, 2, 3, 4, 7] _ storedWorld_ok storedWorld_b (Test.collFree _) 4
    (fun _ => false) [0] s hs [] h 0 0 rfl (fun _ _ => rfl)

/-- C23_every_full_block_sampled_partial -/
example := C23_every_full_block_sampled_partial 4 9 5 (by decide) (by decide)

end Verif.Files
