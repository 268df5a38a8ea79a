import Verif.Proofs.ChunkedReadOnly
/-! # A session on an image opened for reading changes nothing in the world but the clock -/
namespace Verif.Chunked
open Verif Verif.Spec

/-- Only the clock differs. -/
def Ticked (w w' : World) : Prop := w' = { w with tick := w'.tick }

theorem Ticked.refl (w : World) : Ticked w w := rfl
theorem Ticked.trans {a b c : World} (h : Ticked a b) (h' : Ticked b c) : Ticked a c := by
  unfold Ticked at *; rw [h', h]

/-- Opened for reading, nothing dirty in the cache. -/
structure Quiet (s : S) : Prop where
  mode : s.f.mode.w = false
  clean : ∀ id ch, (id, ch) ∈ s.f.chunks → ch.clean = true

theorem Quiet.flushChunks {env : Env} {s : S} (h : Quiet s) (t : Nat) :
    ∃ s', s.flushChunks env t = (.ok (), s') ∧ Quiet s' ∧ s'.w = s.w := by
  unfold S.flushChunks
  split
  · exact ⟨s, rfl, h, rfl⟩
  · have hperm : s.f.sortedChunks.Perm s.f.chunks := sortBy_perm _ _
    have hm : ∀ e, e ∈ s.f.sortedChunks → e ∈ s.f.chunks := fun e he => hperm.mem_iff.1 he
    dsimp only
    rw [flushList_clean env _ s (fun id ch hx => h.clean id ch (hm _ (List.mem_of_mem_drop hx)))]
    exact ⟨_, rfl, ⟨h.mode, fun id ch hx => h.clean id ch (hm _ (List.mem_of_mem_take hx))⟩, rfl⟩

theorem Quiet.currentChunk {env : Env} {s : S} (h : Quiet s) :
    Quiet (s.currentChunk env).2 ∧ Ticked s.w (s.currentChunk env).2.w := by
  unfold S.currentChunk
  dsimp only
  by_cases hh : s.f.chunks.has (s.f.pos / env.cs) = true
  · rw [if_pos hh]
    exact ⟨⟨h.mode, h.clean⟩, rfl⟩
  · rw [if_neg hh]
    obtain ⟨s', e1, e2, e3⟩ := h.flushChunks (env := env) flushTarget
    rw [e1]
    dsimp only
    refine ⟨⟨e2.mode, ?_⟩, ?_⟩
    · intro id ch hx
      rcases Dict.mem_set hx with hx | hx
      · simp only [Prod.mk.injEq] at hx; rw [hx.2]; rfl
      · exact e2.clean id ch hx
    · rw [e3]; rfl

theorem Chunk.read_clean {env : Env} {w : World} {c c' : Chunk} {off : Nat} {size size' : Int} {d : Bytes}
    (h : c.read env w off size = .ok (d, size', c')) : c'.clean = c.clean := by
  unfold Chunk.read at h
  cases hr : c.readExisting env w with
  | error e => rw [hr] at h; cases h
  | ok c1 =>
    rw [hr] at h
    have hc1 : c1.clean = c.clean := by
      unfold Chunk.readExisting at hr
      split at hr
      · cases hr; rfl
      · split at hr
        · cases hr; rfl
        · split at hr
          · cases hr
          · cases hr
          · split at hr
            · cases hr; rfl
            · cases hr
    dsimp only at h
    split at h
    · cases h
    · cases h; exact hc1

theorem Quiet.readLoop {env : Env} (fuel : Nat) : ∀ {s : S} (size : Int) (acc : Bytes), Quiet s →
    Quiet (s.readLoop env fuel size acc).2 ∧ Ticked s.w (s.readLoop env fuel size acc).2.w := by
  induction fuel with
  | zero => intro s size acc h; unfold S.readLoop; split <;> exact ⟨h, rfl⟩
  | succ n ih =>
    intro s size acc h
    unfold S.readLoop
    split
    · exact ⟨h, rfl⟩
    · dsimp only
      obtain ⟨h1, h2⟩ := h.currentChunk (env := env)
      cases hc : s.currentChunk env with
      | mk a s1 =>
        rw [hc] at h1 h2
        cases a with
        | error e => exact ⟨h1, h2⟩
        | ok io =>
          obtain ⟨id, off⟩ := io
          dsimp only at h1 h2 ⊢
          cases hg : s1.f.chunks.get? id with
          | none => exact ⟨h1, h2⟩
          | some c =>
            dsimp only
            cases hr : c.read env s1.w off size with
            | error e => exact ⟨h1, h2⟩
            | ok x =>
              obtain ⟨d, sz, c'⟩ := x
              dsimp only
              have hq : Quiet { s1 with f := { s1.f with chunks := s1.f.chunks.set id c' } } := by
                refine ⟨h1.mode, ?_⟩
                intro i ch hx
                rcases Dict.mem_set hx with hx | hx
                · simp only [Prod.mk.injEq] at hx
                  rw [hx.2, Chunk.read_clean hr]
                  exact h1.clean id c (Dict.mem_of_get? hg)
                · exact h1.clean i ch hx
              split
              · exact ⟨hq, h2⟩
              · obtain ⟨i1, i2⟩ := ih (s := { s1 with f := { s1.f with chunks := s1.f.chunks.set id c',
                                                                       pos := s1.f.pos + d.length } })
                  sz (acc ++ d) ⟨hq.mode, hq.clean⟩
                exact ⟨i1, h2.trans i2⟩

theorem Quiet.read {env : Env} {s : S} (h : Quiet s) (n : Int) :
    Quiet (s.read env n).2 ∧ Ticked s.w (s.read env n).2.w := by
  unfold S.read
  split
  · exact ⟨h, rfl⟩
  · exact Quiet.readLoop _ _ _ h

theorem Quiet.seek {env : Env} {s : S} (h : Quiet s) (o : Int) (wh : Whence) :
    Quiet (s.seek env o wh).2 ∧ Ticked s.w (s.seek env o wh).2.w := by
  unfold S.seek
  split
  · exact ⟨h, rfl⟩
  · cases s.f.seekTarget o wh with
    | error e => exact ⟨h, rfl⟩
    | ok p =>
      dsimp only
      split
      · exact ⟨h, rfl⟩
      · split
        · rename_i hgt
          rw [fill_readonly (s := { s with f := { s.f with pos := s.f.size } }) h.mode (by omega)]
          exact ⟨⟨h.mode, h.clean⟩, rfl⟩
        · exact ⟨⟨h.mode, h.clean⟩, rfl⟩

theorem Quiet.step {env : Env} {s : S} (h : Quiet s) (op : Op) :
    Quiet (s.step env op).1 ∧ Ticked s.w (s.step env op).1.w := by
  cases op with
  | seek o wh => exact h.seek o wh
  | write d =>
    show Quiet (s.write env d).2 ∧ _ 
    have : s.write env d = (.error .assertion, s) := by unfold S.write; rw [if_pos (.inl h.mode)]
    rw [this]
    refine ⟨h, ?_⟩
    show Ticked s.w (s.write env d).2.w
    rw [this]; rfl
  | read n => exact h.read _
  | truncate =>
    have : s.truncate env none = (.error .assertion, s) := by unfold S.truncate; rw [if_pos (.inl h.mode)]
    show Quiet (s.truncate env none).2 ∧ Ticked s.w (s.truncate env none).2.w
    rw [this]; exact ⟨h, rfl⟩
  | flush =>
    have : s.flush env = (.error .assertion, s) := by unfold S.flush; rw [if_pos (.inl h.mode)]
    show Quiet (s.flush env).2 ∧ Ticked s.w (s.flush env).2.w
    rw [this]; exact ⟨h, rfl⟩
  | tell =>
    show Quiet s.tell.2 ∧ Ticked s.w s.tell.2.w
    unfold S.tell; split <;> exact ⟨h, rfl⟩
  | close =>
    show Quiet (s.close env).2 ∧ Ticked s.w (s.close env).2.w
    unfold S.close
    split
    · exact ⟨h, rfl⟩
    · rw [if_neg (by simp [h.mode])]
      exact ⟨⟨h.mode, h.clean⟩, rfl⟩

theorem Quiet.run {env : Env} (ops : List Op) : ∀ {s : S}, Quiet s →
    Quiet (s.run env ops) ∧ Ticked s.w (s.run env ops).w := by
  induction ops with
  | nil => intro s h; exact ⟨h, rfl⟩
  | cons op ops ih =>
    intro s h
    obtain ⟨h1, h2⟩ := h.step (env := env) op
    obtain ⟨i1, i2⟩ := ih h1
    exact ⟨i1, h2.trans i2⟩

theorem Quiet.open {w : World} {name : String} {mode : Mode} {s : S} (hm : mode.w = false)
    (h : File.open w name mode = .ok s) : Quiet s ∧ s.w = w := by
  unfold File.open at h
  split at h
  · rw [if_pos hm] at h; cases h
  · cases h
  · cases h; exact ⟨⟨hm, by simp⟩, rfl⟩

/-- In a quiet session nothing is hashed, so every step is as on a flat file, whatever the hash. -/
theorem Quiet.step_ok {env : Env} {L : List Bytes} {s : S} (hq : Quiet s) (hL : CollFree env.H L)
    (hl : s.w.log ⊆ L) {fl : Flat} (h : R env s fl) (op : Op) :
    R env (s.step env op).1 (fl.step op).1 ∧ (s.step env op).2 = (fl.step op).2 ∧
      Quiet (s.step env op).1 ∧ Ticked s.w (s.step env op).1.w ∧ (s.step env op).1.w.log ⊆ L := by
  obtain ⟨q1, q2⟩ := hq.step (env := env) op
  have hl' : (s.step env op).1.w.log ⊆ L := by
    rw [q2]; exact hl
  obtain ⟨e1, e2, _, _⟩ := Chunked.step_ok hL h op hl'
  exact ⟨e1, e2, q1, q2, hl'⟩

end Verif.Chunked
