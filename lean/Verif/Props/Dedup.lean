import Verif.Proofs.ChunkedInv
import Verif.Proofs.Damage
import Verif.Proofs.History
import Verif.Spec.TestEnv
import Verif.Props.BackupRuns
/-!
# Property C114: a full backup stores only chunks of the image that are not stored yet
-/
namespace Verif.Chunked
open Verif Verif.Spec

/-- The piece number `i` of an image. -/
def piece (env : Env) (image : Bytes) (i : Nat) : Bytes := (image.drop (i * env.cs)).take env.cs

/-- All chunk files of `w` are those of `w0`, except for new ones whose content is a piece of the image. -/
structure OnlyPieces (env : Env) (image : Bytes) (w0 w : World) : Prop where
  force : w.force = w0.force
  chunks : ∀ h, w.chunks.get? h = w0.chunks.get? h ∨
    (w0.force = true ∨ w0.chunks.get? h = none) ∧ ∃ i, i * env.cs < image.length ∧ h = env.H (piece env image i) ∧
      w.chunks.get? h = some (some (piece env image i))

theorem OnlyPieces.refl (env : Env) (image : Bytes) (w : World) : OnlyPieces env image w w := ⟨rfl, fun _ => .inl rfl⟩

/-- What has been written of piece `i` when the position is `pos`. -/
def part (env : Env) (image : Bytes) (pos i : Nat) : Bytes := ((image.take pos).drop (i * env.cs)).take env.cs

theorem part_complete {env : Env} {image : Bytes} {pos i : Nat} (h : (i + 1) * env.cs ≤ pos) : part env image pos i = piece env image i := by
  unfold part piece
  rw [List.drop_take, List.take_take]
  congr 1
  rw [Nat.succ_mul] at h
  omega

theorem part_all {env : Env} {image : Bytes} {i : Nat} : part env image image.length i = piece env image i := by
  unfold part piece
  rw [List.take_length]

/-- While the image is written from the start to the end. -/
structure Seq (env : Env) (image : Bytes) (w0 : World) (pos : Nat) (s : S) : Prop where
  mode : s.f.mode.w = true
  isOpen : s.f.closed = false
  at_ : s.f.pos = pos
  le : pos ≤ image.length
  nodup : s.f.chunks.keys.Nodup
  cached : ∀ e ∈ s.f.chunks, e.1 * env.cs < pos ∧ e.2.clean = false ∧ e.2.data = some (part env image pos e.1)
  mapped : ∀ id ∈ s.f.mapping.keys, (id + 1) * env.cs ≤ pos
  current : pos % env.cs ≠ 0 → s.f.chunks.has (pos / env.cs) = true
  only : OnlyPieces env image w0 s.w

theorem OnlyPieces.flush {env : Env} {image : Bytes} {w0 w : World} (h : OnlyPieces env image w0 w) {c : Chunk} {i : Nat}
    (hi : i * env.cs < image.length) (hc : c.clean = false) (hd : c.data = some (piece env image i)) :
    ∃ x c' w', c.flush env w = .ok (some x, c', w') ∧ OnlyPieces env image w0 w' := by
  unfold Chunk.flush
  rw [if_neg (by rw [hc]; decide), hd]
  refine ⟨_, _, _, rfl, ?_, ?_⟩
  · dsimp only
    split
    · exact h.force
    · split <;> exact h.force
  · intro k
    dsimp only
    split
    · exact h.chunks k
    · split
      · rename_i hw
        dsimp only
        rw [Dict.get?_set]
        split
        · rename_i hk
          subst hk
          refine .inr ⟨?_, i, hi, rfl, rfl⟩
          rcases hw with hw | hw
          · exact .inl (h.force.symm.trans hw)
          · have hno : w.chunks.get? (env.H (piece env image i)) = none := by
              cases hx : w.chunks.get? (env.H (piece env image i)) with
              | none => rfl
              | some y => unfold Dict.has at hw; rw [hx] at hw; cases hw
            rcases h.chunks (env.H (piece env image i)) with he | ⟨_, j, _, _, he⟩
            · exact .inr (he.symm.trans hno)
            · rw [hno] at he; cases he
        · exact h.chunks k
      · exact h.chunks k

/-- Flushing chunks that are complete. -/
theorem flushList_pieces {env : Env} {image : Bytes} {w0 : World} {pos : Nat} : ∀ (l : List (Nat × Chunk)) {s : S},
    OnlyPieces env image w0 s.w →
    (∀ e ∈ l, e.1 * env.cs < image.length ∧ e.2.clean = false ∧ e.2.data = some (piece env image e.1)) →
    (∀ id ∈ s.f.mapping.keys, (id + 1) * env.cs ≤ pos) → (∀ e ∈ l, (e.1 + 1) * env.cs ≤ pos) →
    (flushList env l s).1 = .ok () ∧ OnlyPieces env image w0 (flushList env l s).2.w ∧
      (∀ id ∈ (flushList env l s).2.f.mapping.keys, (id + 1) * env.cs ≤ pos) ∧
      (flushList env l s).2.f = { s.f with mapping := (flushList env l s).2.f.mapping }
  | [], s, hw, _, hm, _ => ⟨rfl, hw, hm, rfl⟩
  | (id, c) :: l, s, hw, hl, hm, hp => by
    obtain ⟨h1, h2, h3⟩ := hl (id, c) (by simp)
    obtain ⟨x, c', w', hf, hw'⟩ := hw.flush h1 h2 h3
    have ih := flushList_pieces (pos := pos) l (s := ⟨{ s.f with mapping := s.f.mapping.set id x }, w'⟩) hw' (fun e he => hl e (by simp [he]))
      (by
        intro k hk
        have hk : k ∈ (s.f.mapping.set id x).keys := hk
        rw [Dict.keys_set] at hk
        split at hk
        · exact hm k hk
        · rcases List.mem_append.1 hk with hk | hk
          · exact hm k hk
          · rw [List.mem_singleton.1 hk]
            exact hp (id, c) (by simp)) (fun e he => hp e (by simp [he]))
    unfold flushList
    rw [hf]
    exact ⟨ih.1, ih.2.1, ih.2.2.1, ih.2.2.2⟩

theorem div_lt_of_mul {cs pos id : Nat} (hcs : 0 < cs) (h : id * cs < pos) (hne : id ≠ pos / cs) : (id + 1) * cs ≤ pos := by
  have h1 : id ≤ pos / cs := (Nat.le_div_iff_mul_le hcs).2 (Nat.le_of_lt h)
  have h2 : id + 1 ≤ pos / cs := by omega
  exact (Nat.le_div_iff_mul_le hcs).1 h2

/-- The chunk at the position, before a write. -/
theorem Seq.currentChunk {env : Env} {image : Bytes} {w0 : World} {pos : Nat} {s : S} (h : Seq env image w0 pos s) :
    ∃ s' c, s.currentChunk env = (.ok (pos / env.cs, pos % env.cs), s') ∧ s'.f.chunks.get? (pos / env.cs) = some c ∧
      s'.f.mode = s.f.mode ∧ s'.f.closed = s.f.closed ∧ s'.f.pos = pos ∧ s'.f.chunks.keys.Nodup ∧
      (∀ e ∈ s'.f.chunks, e.1 ≠ pos / env.cs → e.1 * env.cs < pos ∧ e.2.clean = false ∧ e.2.data = some (part env image pos e.1)) ∧
      (∀ id ∈ s'.f.mapping.keys, (id + 1) * env.cs ≤ pos) ∧ OnlyPieces env image w0 s'.w ∧
      ((pos % env.cs ≠ 0 ∧ c.data = some (part env image pos (pos / env.cs))) ∨ (pos % env.cs = 0 ∧ c = Chunk.new none)) := by
  have hcs := env.cs_pos
  unfold S.currentChunk
  dsimp only
  rw [h.at_]
  by_cases hh : s.f.chunks.has (pos / env.cs) = true
  · obtain ⟨c, hc⟩ := Option.isSome_iff_exists.1 hh
    simp only [hh, if_true]
    refine ⟨_, c, rfl, hc, rfl, rfl, h.at_, h.nodup, fun e he _ => h.cached e he, h.mapped, ⟨h.only.force, h.only.chunks⟩, .inl ⟨?_, ?_⟩⟩
    · intro h0
      have := (h.cached _ (Dict.mem_of_get? hc)).1
      have h2 := Nat.div_add_mod pos env.cs
      rw [h0, Nat.mul_comm] at h2
      dsimp only at this
      omega
    · exact (h.cached _ (Dict.mem_of_get? hc)).2.2
  · simp only [hh, Bool.false_eq_true, if_false]
    have h0 : pos % env.cs = 0 := by
      by_cases h0 : pos % env.cs = 0
      · exact h0
      · exact absurd (h.current h0) hh
    have hne : ∀ e ∈ s.f.chunks, e.1 ≠ pos / env.cs := by
      intro e he heq
      refine hh ?_
      have := Dict.get?_of_mem h.nodup he
      unfold Dict.has
      rw [← heq, this]; rfl
    have hcomp : ∀ e ∈ s.f.chunks, (e.1 + 1) * env.cs ≤ pos := fun e he => div_lt_of_mul hcs (h.cached e he).1 (hne e he)
    have hperm : s.f.sortedChunks.Perm s.f.chunks := sortBy_perm _ _
    -- the state after flushing
    have key : ∃ s1 : S, s.flushChunks env flushTarget = (.ok (), s1) ∧ s1.f.mode = s.f.mode ∧ s1.f.closed = s.f.closed ∧ s1.f.pos = pos ∧
        s1.f.chunks.keys.Nodup ∧ (∀ e ∈ s1.f.chunks, e ∈ s.f.chunks) ∧ (∀ id ∈ s1.f.mapping.keys, (id + 1) * env.cs ≤ pos) ∧
        OnlyPieces env image w0 s1.w := by
      unfold S.flushChunks
      split
      · exact ⟨s, rfl, rfl, rfl, h.at_, h.nodup, fun e he => he, h.mapped, h.only⟩
      · have hin : ∀ e ∈ s.f.sortedChunks.drop flushTarget, e ∈ s.f.chunks := fun e he => hperm.mem_iff.1 (List.mem_of_mem_drop he)
        obtain ⟨k1, k2, k3, k4⟩ := flushList_pieces (env := env) (image := image) (w0 := w0) (pos := pos) (s.f.sortedChunks.drop flushTarget) (s := s) h.only
          (fun e he => by
            obtain ⟨a, b, c⟩ := h.cached e (hin e he)
            refine ⟨Nat.lt_of_lt_of_le a h.le, b, ?_⟩
            rw [c, part_complete (hcomp e (hin e he))])
          h.mapped (fun e he => hcomp e (hin e he))
        dsimp only
        generalize flushList env (s.f.sortedChunks.drop flushTarget) s = r at k1 k2 k3 k4
        obtain ⟨a, b⟩ := r
        dsimp only at k1 k2 k3 k4
        subst k1
        dsimp only
        refine ⟨_, rfl, ?_, ?_, ?_, ?_, fun e he => hperm.mem_iff.1 (List.mem_of_mem_take he), k3, k2⟩
        · show b.f.mode = _
          rw [k4]
        · show b.f.closed = _
          rw [k4]
        · show b.f.pos = _
          rw [k4]; exact h.at_
        · show (Dict.keys (s.f.sortedChunks.take flushTarget)).Nodup
          unfold Dict.keys
          rw [List.map_take]
          exact ((hperm.map Prod.fst).nodup_iff.2 h.nodup).sublist (List.take_sublist _ _)
    obtain ⟨s1, e1, e2, e3, e4, e5, e6, e7, e8⟩ := key
    rw [e1]
    dsimp only
    have hmap : s1.f.mapping.get? (pos / env.cs) = none := by
      rw [Dict.get?_eq_none_iff]
      intro hm
      have := e7 _ hm
      have h2 := Nat.div_add_mod pos env.cs
      rw [h0, Nat.mul_comm] at h2
      rw [Nat.succ_mul] at this
      omega
    refine ⟨_, Chunk.new none, rfl, ?_, e2, e3, e4, ?_, ?_, e7, ⟨e8.force, e8.chunks⟩, .inr ⟨h0, rfl⟩⟩
    · show Dict.get? (s1.f.chunks.set _ _) _ = _
      rw [Dict.get?_set_self, hmap]
    · exact Dict.nodup_set e5 _ _
    · intro e he hn
      rcases Dict.mem_set he with rfl | he
      · exact absurd rfl hn
      · exact h.cached e (e6 e he)

theorem part_length {env : Env} {image : Bytes} {pos : Nat} (h : pos ≤ image.length) :
    (part env image pos (pos / env.cs)).length = pos % env.cs := by
  have h2 := Nat.div_add_mod pos env.cs
  have h3 := Nat.mod_lt pos env.cs_pos
  unfold part
  rw [List.length_take, List.length_drop, List.length_take, Nat.min_eq_left h, Nat.mul_comm]
  omega

theorem part_step {env : Env} {image : Bytes} {pos n : Nat} (h : pos ≤ image.length) (hn : n ≤ env.cs - pos % env.cs) :
    part env image (pos + n) (pos / env.cs) = part env image pos (pos / env.cs) ++ (image.drop pos).take n := by
  have h2 := Nat.div_add_mod pos env.cs
  have h3 := Nat.mod_lt pos env.cs_pos
  have hl : ((image.take pos).drop (pos / env.cs * env.cs)).length = pos % env.cs := by
    rw [List.length_drop, List.length_take, Nat.min_eq_left h, Nat.mul_comm]; omega
  unfold part
  rw [List.take_add, List.drop_append_of_le_length (by rw [List.length_take, Nat.min_eq_left h, Nat.mul_comm]; omega),
    List.take_of_length_le (l := (image.take pos).drop (pos / env.cs * env.cs)) (by rw [hl]; omega)]
  refine List.take_of_length_le ?_
  rw [List.length_append, hl, List.length_take]
  omega

theorem writeAt_end (v d : Bytes) : writeAt v v.length d = v ++ d := by
  unfold writeAt
  split
  · rename_i h; rw [h, List.append_nil]
  · rw [List.take_length, Nat.sub_self, List.drop_of_length_le (Nat.le_add_right _ _)]
    simp [zeros]

/-- One write to the chunk at the position. -/
theorem chunkWrite_part {env : Env} {image : Bytes} {pos : Nat} (hle : pos ≤ image.length) {c : Chunk} (w : World)
    (hc : (pos % env.cs ≠ 0 ∧ c.data = some (part env image pos (pos / env.cs))) ∨ (pos % env.cs = 0 ∧ c = Chunk.new none))
    (n : Nat) (hn : pos + n ≤ image.length) :
    ∃ c', c.write env w (pos % env.cs) ((image.drop pos).take n) =
        .ok (min n (env.cs - pos % env.cs), (image.drop (pos + min n (env.cs - pos % env.cs))).take (n - min n (env.cs - pos % env.cs)), c') ∧
      c'.clean = false ∧ c'.data = some (part env image (pos + min n (env.cs - pos % env.cs)) (pos / env.cs)) := by
  have hd : ((image.drop pos).take n).take (env.cs - pos % env.cs) = (image.drop pos).take (min n (env.cs - pos % env.cs)) := by
    rw [List.take_take, Nat.min_comm]
  have hr : ((image.drop pos).take n).drop (env.cs - pos % env.cs) =
      (image.drop (pos + min n (env.cs - pos % env.cs))).take (n - min n (env.cs - pos % env.cs)) := by
    rw [List.drop_take, List.drop_drop]
    by_cases hx : n ≤ env.cs - pos % env.cs
    · rw [Nat.min_eq_left hx, Nat.sub_self, Nat.sub_eq_zero_of_le hx, List.take_zero, List.take_zero]
    · rw [Nat.min_eq_right (by omega)]
  have hl : ((image.drop pos).take (min n (env.cs - pos % env.cs))).length = min n (env.cs - pos % env.cs) := by
    rw [List.length_take, List.length_drop]; omega
  have hp := part_step (env := env) (n := min n (env.cs - pos % env.cs)) hle (Nat.min_le_right _ _)
  have hpl := part_length (env := env) hle
  unfold Chunk.write
  dsimp only
  rw [hd, hr, hl]
  rcases hc with ⟨h0, hdata⟩ | ⟨h0, rfl⟩
  · rw [if_neg (by rintro ⟨h, _⟩; exact h0 h)]
    have hx : c.readExisting env w = .ok c := by unfold Chunk.readExisting; rw [hdata]
    rw [hx]
    dsimp only
    rw [hdata]
    refine ⟨_, rfl, rfl, ?_⟩
    dsimp only
    rw [hp, ← writeAt_end, hpl]
  · have hnil : part env image pos (pos / env.cs) = [] := List.length_eq_zero_iff.1 (by rw [hpl, h0])
    rw [hnil, List.nil_append] at hp
    split
    · exact ⟨_, rfl, rfl, by dsimp only; rw [hp]⟩
    · have hx : (Chunk.new none).readExisting env w = .ok { Chunk.new none with data := some [] } := rfl
      rw [hx]
      refine ⟨_, rfl, rfl, ?_⟩
      dsimp only
      rw [hp]
      refine congrArg some ?_
      refine Eq.trans ?_ ((writeAt_end [] _).trans (List.nil_append _))
      exact congrArg (fun o => writeAt [] o _) h0

/-- Writing goes on. -/
theorem Seq.writeLoop {env : Env} {image : Bytes} {w0 : World} (n : Nat) : ∀ {pos : Nat} {s : S}, Seq env image w0 pos s → pos + n ≤ image.length →
    ∃ s', s.writeLoop env ((image.drop pos).take n) = (.ok (), s') ∧ Seq env image w0 (pos + n) s' := by
  induction n using Nat.strongRecOn with
  | ind n ih =>
    intro pos s h hn
    have hcs := env.cs_pos
    have hlen : ((image.drop pos).take n).length = n := by rw [List.length_take, List.length_drop]; omega
    unfold S.writeLoop
    by_cases h0 : n = 0
    · subst h0
      rw [if_pos (by simp)]
      exact ⟨s, rfl, h⟩
    rw [if_neg (by intro he; rw [he] at hlen; exact h0 hlen.symm)]
    obtain ⟨s1, c, e1, e2, e3, e4, e5, e6, e7, e8, e9, e10⟩ := h.currentChunk
    obtain ⟨c', f1, f2, f3⟩ := chunkWrite_part h.le s1.w e10 n hn
    have hmod := Nat.mod_lt pos hcs
    have hm : 0 < min n (env.cs - pos % env.cs) := by omega
    rw [e1]
    dsimp only
    rw [e2]
    dsimp only
    rw [f1]
    dsimp only
    rw [dif_pos (by rw [hlen, List.length_take]; omega)]
    generalize hk : min n (env.cs - pos % env.cs) = k at *
    have hkn : k ≤ n := by omega
    have hkc : k ≤ env.cs - pos % env.cs := by omega
    have hseq : Seq env image w0 (pos + k) ⟨{ s1.f with chunks := s1.f.chunks.set (pos / env.cs) c', pos := s1.f.pos + k, size := max s1.f.size (s1.f.pos + k) }, s1.w⟩ := by
      have hdm := Nat.div_add_mod pos env.cs
      rw [Nat.mul_comm] at hdm
      refine ⟨?_, ?_, ?_, by omega, Dict.nodup_set e6 _ _, ?_, ?_, ?_, e9⟩
      · show s1.f.mode.w = true
        rw [e3]; exact h.mode
      · show s1.f.closed = false
        rw [e4]; exact h.isOpen
      · show s1.f.pos + k = _
        rw [e5]
      · intro e he
        rcases Dict.mem_set he with rfl | he
        · exact ⟨by dsimp only; omega, f2, f3⟩
        · by_cases hid : e.1 = pos / env.cs
          · have hmem : (e.1, e.2) ∈ s1.f.chunks.set (pos / env.cs) c' := by assumption
            have hnd : (s1.f.chunks.set (pos / env.cs) c').keys.Nodup := Dict.nodup_set e6 _ _
            have hg := Dict.get?_of_mem hnd hmem
            rw [hid, Dict.get?_set_self] at hg
            cases hg
            rw [hid]
            exact ⟨by omega, f2, f3⟩
          · obtain ⟨g1, g2, g3⟩ := e7 e he hid
            have hcomp := div_lt_of_mul hcs g1 hid
            refine ⟨by omega, g2, ?_⟩
            rw [g3, part_complete hcomp, part_complete (by omega)]
      · intro id hid
        have := e8 id hid
        omega
      · intro hne
        have hsame : (pos + k) / env.cs = pos / env.cs := by
          refine Nat.div_eq_of_lt_le (by omega) ?_
          rw [Nat.succ_mul]
          have : pos + k ≠ pos / env.cs * env.cs + env.cs := by
            intro he
            rw [he, Nat.add_mod_right, Nat.mul_mod_left] at hne
            exact hne rfl
          omega
        show Dict.has (s1.f.chunks.set (pos / env.cs) c') _ = true
        rw [hsame]
        unfold Dict.has
        rw [Dict.get?_set_self]; rfl
    obtain ⟨s', g1, g2⟩ := ih (n - k) (by omega) hseq (by omega)
    refine ⟨s', g1, ?_⟩
    rw [show pos + k + (n - k) = pos + n by omega] at g2
    exact g2

theorem Seq.write {env : Env} {image : Bytes} {w0 : World} {n pos : Nat} {s : S} (h : Seq env image w0 pos s) (hn : pos + n ≤ image.length) :
    ∃ s', s.write env ((image.drop pos).take n) = (.ok (), s') ∧ Seq env image w0 (pos + n) s' := by
  unfold S.write
  rw [if_neg (by rw [h.mode, h.isOpen]; decide)]
  exact h.writeLoop n hn

/-- Writing the rest of the image in pieces of any size. -/
theorem Seq.exec {env : Env} {image : Bytes} {w0 : World} : ∀ (l : List Bytes) {pos : Nat} {s : S}, Seq env image w0 pos s → l.flatten = image.drop pos →
    ∃ s', Diff.exec env (l.map .write) s = (.ok (), s') ∧ Seq env image w0 image.length s'
  | [], pos, s, h, hl => by
    have : image.length ≤ pos := List.drop_eq_nil_iff.1 hl.symm
    have hp : pos = image.length := Nat.le_antisymm h.le this
    subst hp
    exact ⟨s, rfl, h⟩
  | d :: l, pos, s, h, hl => by
    rw [List.flatten_cons] at hl
    have hlen : d.length + l.flatten.length = image.length - pos := by
      rw [← List.length_append, hl, List.length_drop]
    have hle := h.le
    have hd : d = (image.drop pos).take d.length := by rw [← hl, List.take_left]
    have hrest : l.flatten = image.drop (pos + d.length) := by
      rw [← List.drop_drop, ← hl, List.drop_left]
    obtain ⟨s1, e1, e2⟩ := h.write (n := d.length) (by omega)
    rw [← hd] at e1
    obtain ⟨s', f1, f2⟩ := Seq.exec l e2 hrest
    refine ⟨s', ?_, f2⟩
    rw [List.map_cons]
    unfold Diff.exec
    dsimp only
    have hs : s.step env (.write d) = (s1, .ok .unit) := by
      show outOf _ (s.write env d) = _
      rw [e1]; rfl
    rw [hs]
    exact f1

/-- Closing the file at the end. -/
theorem Seq.close {env : Env} {image : Bytes} {w0 : World} {s : S} (h : Seq env image w0 image.length s) :
    (s.close env).1 = .ok () ∧ OnlyPieces env image w0 (s.close env).2.w := by
  have hperm : s.f.sortedChunks.Perm s.f.chunks := sortBy_perm _ _
  have hb : ∀ e ∈ s.f.sortedChunks.drop 0, (e.1 + 1) * env.cs ≤ image.length + env.cs := by
    intro e he
    have := (h.cached e (hperm.mem_iff.1 he)).1
    rw [Nat.succ_mul]; omega
  obtain ⟨k1, k2, k3, k4⟩ := flushList_pieces (env := env) (image := image) (w0 := w0) (pos := image.length + env.cs) (s.f.sortedChunks.drop 0) (s := s) h.only
    (fun e he => by
      obtain ⟨a, b, c⟩ := h.cached e (hperm.mem_iff.1 he)
      exact ⟨a, b, by rw [c, part_all]⟩)
    (fun id hid => Nat.le_trans (h.mapped id hid) (Nat.le_add_right _ _)) hb
  unfold S.close S.flush S.flushChunks
  rw [if_neg (by rw [h.isOpen]; decide), if_pos h.mode, if_neg (by rw [h.mode, h.isOpen]; decide), if_neg (by omega)]
  dsimp only
  generalize flushList env (s.f.sortedChunks.drop 0) s = r at k1 k2 k3 k4
  obtain ⟨a, b⟩ := r
  dsimp only at k1 k2
  subst k1
  exact ⟨rfl, k2.force, k2.chunks⟩

end Verif.Chunked

namespace Verif.Backup
open Verif Verif.Chunked Verif.Spec Verif.Rbd Verif.Repo Verif.Files Verif.Diff

/-- What a backup of `image` that does not build on another revision may leave in the chunk store `w`, if it was `w0` before: files that
have been there, and new files for pieces of the image that have not been stored. -/
def Deduplicated (env : Env) (image : Bytes) (w0 w : World) : Prop :=
  ∀ h x, w.chunks.get? h = some x → w0.chunks.get? h = some x ∨
    w0.chunks.get? h = none ∧ ∃ i, i * env.cs < image.length ∧ h = env.H ((image.drop (i * env.cs)).take env.cs) ∧
      x = some ((image.drop (i * env.cs)).take env.cs)

/-- The writing phase of a full backup. -/
theorem writePhase_pieces {env : Env} {o : Rbd} {uuid : String} {s : Src} (hm : s.w.metas.get? uuid = none) :
    OnlyPieces env o.exportOut s.w (writePhase env o uuid none s).2 := by
  have hopen : openWrite s uuid none = (.ok ⟨{ name := uuid, mode := wb, closed := false, pos := 0, size := 0, mapping := [], chunks := [], stats := [] }, s.w⟩, s.w) := by
    unfold openWrite copyParent File.open
    dsimp only
    rw [hm]
    simp [containsDistrusted_false, wb]
  unfold writePhase
  rw [hopen]
  dsimp only
  unfold transfer full
  dsimp only
  have h0 : Seq env o.exportOut s.w 0 ⟨{ name := uuid, mode := wb, closed := false, pos := 0, size := 0, mapping := [], chunks := [], stats := [] }, s.w⟩ :=
    ⟨rfl, rfl, rfl, Nat.zero_le _, List.nodup_nil, (fun e he => by cases he), (fun id hid => by cases hid),
      (fun hne => absurd (Nat.zero_mod _) hne), OnlyPieces.refl _ _ _⟩
  obtain ⟨s1, e1, e2⟩ := h0.exec (pieces env.blk env.blk_pos o.exportOut) (by rw [(pieces_flatten _ _ _).1, List.drop_zero])
  unfold pieces at e1
  rw [e1]
  obtain ⟨f1, f2⟩ := e2.close
  unfold closing
  dsimp only
  generalize s1.close env = r at f1 f2
  obtain ⟨a, b⟩ := r
  dsimp only at f1 f2
  subst f1
  exact f2

theorem dedup_of_pieces {env : Env} {image : Bytes} {w0 w : World} (h : OnlyPieces env image w0 w) (hf : w0.force = false) : Deduplicated env image w0 w := by
  intro k x hx
  rcases h.chunks k with he | ⟨hn, i, hi, hk, he⟩
  · exact .inl (he.symm.trans hx)
  · rcases hn with hn | hn
    · rw [hf] at hn; cases hn
    · refine .inr ⟨hn, i, hi, hk, ?_⟩
      rw [he] at hx; cases hx; rfl

theorem Deduplicated.same {env : Env} {image : Bytes} {w0 w w' : World} (h : Deduplicated env image w0 w)
    (hs : ∀ k x, w'.chunks.get? k = some x → w.chunks.get? k = some x) : Deduplicated env image w0 w' := fun k x hx => h k x (hs k x hx)

theorem Deduplicated.refl (env : Env) (image : Bytes) (w : World) : Deduplicated env image w w := fun _ _ hx => .inl hx

/-- A backup that does not build on another revision. -/
theorem backup_dedup {env : Env} {af : Bool} {o : Rbd} {r : Rev} {s : Sys} (hm : s.src.w.metas.get? r.uuid = none) (hforce : s.src.w.force = false)
    (hp : ∀ p, cephGetParent af (s.snapshot r).ceph.snaps o.infoFails s.src.repo r ≠ .ok (some p)) :
    Deduplicated env o.exportOut s.src.w (backup env af o r s).2.src.w := by
  unfold backup
  split
  · exact Deduplicated.refl _ _ _
  split
  · exact Deduplicated.refl _ _ _
  dsimp only
  refine Deduplicated.same ?_ (afterSnapshot_shrunk env o r _ _).chunks
  show Deduplicated env o.exportOut s.src.w (backupBody env af o r s.ceph.image (s.snapshot r)).2
  unfold backupBody
  split
  · exact Deduplicated.refl _ _ _
  · rename_i parent hpar
    cases parent with
    | some p => exact absurd hpar (hp p)
    | none =>
      have hw : Deduplicated env o.exportOut s.src.w (writePhase env o r.uuid none (s.snapshot r).src).2 :=
        dedup_of_pieces (writePhase_pieces (s := s.src) hm) hforce
      generalize writePhase env o r.uuid none (s.snapshot r).src = g at hw
      obtain ⟨g1, g2⟩ := g
      cases g1 with
      | error e => exact hw
      | ok u =>
        refine hw.same ?_
        intro k x hx
        have ht := verifyPhase_ticked env o r.uuid s.ceph.image g2
        dsimp only at hx
        unfold Ticked at ht
        rw [ht] at hx
        exact hx

theorem mainBackup_world {env : Env} {af : Bool} {o : Rbd} {uuid : String} {s : Sys} (P : World → Prop) (h0 : P s.src.w.fresh)
    (h : ∀ r, findByUuid s.connect.src.repo uuid = .ok r → P (backup env af o r s.connect).2.src.w) : P (mainBackup env af o uuid s).2.src.w := by
  unfold mainBackup
  split
  · exact h0
  · rename_i r hr
    have := h r hr
    generalize backup env af o r s.connect = g at this
    obtain ⟨g1, g2⟩ := g
    rcases g1 with e | b
    · exact this
    · cases b <;> exact this

/-- **C114** (deduplication).  A full backup adds to the chunk store only pieces of the image (cut at multiples of the chunk size) that were not
stored, each in one file under the hash of its content; a file that was there is not written again.  This holds whatever the outcome. -/
theorem C114_full_backup (env : Env) (o : Rbd) {uuid : String} (ts : Int) (tags : Finset String) {s : Sys} (hu : Fresh s uuid) :
    Deduplicated env o.exportOut s.src.w (runBackup env true o uuid ts tags s).2.src.w := by
  unfold runBackup
  refine mainBackup_world (fun w => Deduplicated env o.exportOut s.src.w w) (Deduplicated.refl _ _ _) ?_
  intro r hr
  have hid : r.uuid = uuid := by
    unfold findByUuid at hr
    split at hr
    · cases hr
    · rename_i x hx
      cases hr
      exact of_decide_eq_true (List.find?_some hx :)
  refine backup_dedup (s := Sys.connect _) ?_ rfl ?_
  · rw [hid]; exact hu.image
  · intro p
    unfold cephGetParent
    rw [if_pos rfl]
    intro hh; cases hh

/-- The same for a backup that may be incremental if there is nothing it could build on: none of the complete local revisions that are not
distrusted has a snapshot in the cluster. -/
theorem C114_without_base {env : Env} {L : List Bytes} (hL : CollFree env.H L) {s0 s : Sys} (hi : Initial s0) (hs : Steps env s0 s)
    (hlog : s.src.w.log ⊆ L)
    (hnone : ∀ r, onDisk s.src.repo.files r.uuid = some r → r.server = "" → r.clean = true → r.trust ≠ .distrusted →
      s.ceph.snaps.has (snapName r.uuid) = false) (af : Bool) (o : Rbd) {uuid : String}
    (ts : Int) (tags : Finset String) (hu : Fresh s uuid) :
    Deduplicated env o.exportOut s.src.w (runBackup env af o uuid ts tags s.connect).2.src.w := by
  have hg := (Good.initial (env := env) hi).steps hL hs hlog
  have hst := hg.prepared hu ts tags
  have hn : Named s.src.repo.files := hg.disk.named
  unfold runBackup
  refine mainBackup_world (fun w => Deduplicated env o.exportOut s.src.w w) (Deduplicated.refl _ _ _) ?_
  intro r hr
  have hrev : r = newRev uuid ts tags := by
    have hfind : findByUuid (s.prepared uuid ts tags).src.repo uuid = .ok r := hr
    unfold findByUuid at hfind
    split at hfind
    · cases hfind
    · rename_i x hx
      cases hfind
      exact List.inj_on_of_nodup_map hst.mem.sync.nodup (List.mem_of_find?_eq_some hx) hst.rev (of_decide_eq_true (List.find?_some hx :))
  subst hrev
  refine backup_dedup (s := s.prepared uuid ts tags) hst.fresh rfl ?_
  intro p hp
  obtain ⟨q1, q2, q3⟩ := cephGetParent_some hst.mem.sync.nodup hst.rev hst.trust hp
  have h1 := q3.snap
  have h2 : ∃ d, ((s.prepared uuid ts tags).snapshot (newRev uuid ts tags)).ceph.snaps.get? (snapName p.uuid) = some d :=
    Option.isSome_iff_exists.1 h1
  obtain ⟨d, hd⟩ := h2
  simp only [Sys.snapshot] at hd
  rw [get?_append_single, if_neg (fun he => q2 (snapName_inj he))] at hd
  have hsync : Sync s.connect.src.repo := Sync.scan hn
  have hclean := clean_complete hsync
  have hp0 : onDisk (s.prepared uuid ts tags).src.repo.files p.uuid = some p := (hst.mem.sync.mem p).1 q1
  change onDisk (s.connect.src.repo.clean.files.set (newRev uuid ts tags).uuid ⟨false, newRev uuid ts tags⟩) _ = _ at hp0
  rw [onDisk_set, if_neg (show p.uuid ≠ (newRev uuid ts tags).uuid from q2)] at hp0
  have hp1 := (hclean.2 p).1 ((hclean.1.mem p).2 hp0)
  have hserver : p.server = "" := q3.server
  have h3 := hnone p ((hsync.mem p).1 hp1.1) hserver (hp1.2 (by simp [Rev.isLocal, hserver])) q3.trust
  rw [show s.ceph.snaps.has (snapName p.uuid) = true by
    unfold Dict.has
    have : s.ceph.snaps.get? (snapName p.uuid) = some d := by
      rw [Option.or_none] at hd; exact hd
    rw [this]; rfl] at h3
  cases h3

/-- The same as long as no snapshot of an earlier backup exists in the cluster (e.g. for the first one). -/
theorem C114_first_backup {env : Env} {L : List Bytes} (hL : CollFree env.H L) {s0 s : Sys} (hi : Initial s0) (hs : Steps env s0 s)
    (hlog : s.src.w.log ⊆ L) (hnone : ∀ n, s.ceph.snaps.has n = true → startsWith n "backy-" = false) (af : Bool) (o : Rbd) {uuid : String}
    (ts : Int) (tags : Finset String) (hu : Fresh s uuid) :
    Deduplicated env o.exportOut s.src.w (runBackup env af o uuid ts tags s.connect).2.src.w := by
  refine C114_without_base hL hi hs hlog (fun r _ _ _ _ => ?_) af o ts tags hu
  cases h : s.ceph.snaps.has (snapName r.uuid) with
  | false => rfl
  | true =>
    have h3 := hnone _ h
    rw [startsWith_snapName] at h3
    cases h3

/-- An image all of whose pieces are stored already needs no new chunk files. -/
theorem C114_nothing_new (env : Env) (o : Rbd) {uuid : String} (ts : Int) (tags : Finset String) {s : Sys} (hu : Fresh s uuid)
    (hall : ∀ i, i * env.cs < o.exportOut.length → s.src.w.chunks.has (env.H ((o.exportOut.drop (i * env.cs)).take env.cs)) = true) :
    ∀ h x, (runBackup env true o uuid ts tags s).2.src.w.chunks.get? h = some x → s.src.w.chunks.get? h = some x := by
  intro h x hx
  rcases C114_full_backup env o ts tags hu h x hx with he | ⟨hn, i, hi, hk, _⟩
  · exact he
  · have := hall i hi
    unfold Dict.has at this
    rw [← hk, hn] at this
    cases this

/-- No content is stored twice: after any history two chunk files have different contents. -/
theorem C114_once {env : Env} {L : List Bytes} (hL : CollFree env.H L) {s0 s : Sys} (hi : Initial s0) (hs : Steps env s0 s) (hlog : s.src.w.log ⊆ L)
    {h h' : Hash} {x : Option Bytes} (h1 : s.src.w.chunks.get? h = some x) (h2 : s.src.w.chunks.get? h' = some x) : h = h' := by
  have hg := (Good.initial (env := env) hi).steps hL hs hlog
  obtain ⟨d, rfl, e1, _⟩ := hg.disk.wok.good h x h1
  obtain ⟨d', e2, e3, _⟩ := hg.disk.wok.good h' _ h2
  cases e2
  exact e1.symm.trans e3

/-- A first full backup of an image with two equal pieces stores two chunk files. -/
example : Deduplicated Test.env [0, 0, 0, 0, 1, 1, 1, 1, 0, 0, 0, 0] exNew.src.w
    (runBackup Test.env true (idealRbd [0, 0, 0, 0, 1, 1, 1, 1, 0, 0, 0, 0] [0]) "a" 10 {"daily"} exNew).2.src.w :=
  C114_full_backup Test.env (idealRbd [0, 0, 0, 0, 1, 1, 1, 1, 0, 0, 0, 0] [0]) 10 {"daily"} exFirst_fresh

example : (runBackup Test.env true (idealRbd [0, 0, 0, 0, 1, 1, 1, 1, 0, 0, 0, 0] [0]) "a" 10 {"daily"} exNew).2.src.w.chunks.length = 2 := by
  decide +kernel

/-- The pieces in another order need no new chunk files. -/
example : ∀ h x, (runBackup Test.env true (idealRbd [1, 1, 1, 1, 0, 0, 0, 0, 1, 1, 1, 1] [0]) "b" 20 {"daily"} exFirst).2.src.w.chunks.get? h = some x →
    exFirst.src.w.chunks.get? h = some x :=
  C114_nothing_new Test.env (idealRbd [1, 1, 1, 1, 0, 0, 0, 0, 1, 1, 1, 1] [0]) 20 {"daily"}
    ⟨by decide +kernel, by decide +kernel, by decide +kernel⟩ (by
      intro i hi
      have hi : i * 4 < 12 := hi
      have : i = 0 ∨ i = 1 ∨ i = 2 := by omega
      rcases this with rfl | rfl | rfl <;> decide +kernel)

/-- The first backup of a new repository. -/
example : Deduplicated Test.env [0, 0, 0, 0, 1, 1, 1, 1] exNew.src.w
    (runBackup Test.env false (idealRbd [0, 0, 0, 0, 1, 1, 1, 1] [0]) "a" 10 {"daily"} exNew.connect).2.src.w :=
  C114_first_backup (env := Test.env) (Test.collFree []) exNew_initial (.nil _) (fun _ h => h) exNew_new.snaps false
    (idealRbd [0, 0, 0, 0, 1, 1, 1, 1] [0]) 10 {"daily"} exFirst_fresh

/-- C114_without_base: the only revision is distrusted, its snapshot is still there. -/
def exDoubted : Sys := { exChanged.connect with src := { exChanged.connect.src with
  repo := (exChanged.connect.src.repo.distrust exChanged.connect.src.repo.history).2 } }
example : Deduplicated Test.env [0, 0, 0, 0, 2, 2, 2, 2] exDoubted.src.w
    (runBackup Test.env false (idealRbd [0, 0, 0, 0, 2, 2, 2, 2] [1]) "b" 20 {"daily"} exDoubted.connect).2.src.w :=
  C114_without_base (env := Test.env) (L := exDoubted.src.w.log) (Test.collFree _) exNew_initial
    (.cons (.cons (.cons (.nil _) (.backup _ _ _ _ _ _ exFirst_fresh exFirst_works.faithful)) (.guest _ _))
      (.distrust exChanged _ (fun _ h => h))) (fun _ h => h)
    (fun r hr _ _ ht => absurd (by
      have hf : exDoubted.src.repo.files.map (fun x => x.2.rev.trust) = [.distrusted] := by decide +kernel
      have hm := Dict.mem_of_get? (onDisk_eq_some.1 hr)
      have : r.trust ∈ exDoubted.src.repo.files.map (fun x => x.2.rev.trust) := List.mem_map.2 ⟨_, hm, rfl⟩
      rw [hf, List.mem_singleton] at this
      exact this) ht) false (idealRbd [0, 0, 0, 0, 2, 2, 2, 2] [1]) 20 {"daily"}
    ⟨by decide +kernel, by decide +kernel, by decide +kernel⟩

/-- C114_once: the chunk files of the first backup are those of different data. -/
example (h h' : Hash) (x : Option Bytes) :=
  C114_once (env := Test.env) (L := exFirst.src.w.log) (Test.collFree _) exNew_initial
    (.cons (.nil _) (.backup _ _ _ _ _ _ exFirst_fresh exFirst_works.faithful)) (fun _ h => h) (h := h) (h' := h') (x := x)

end Verif.Backup
