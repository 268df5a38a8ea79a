import Verif.Model.Overlap
import Verif.Proofs.ReadOnlyWorld
import Verif.Proofs.Gc
/-! # Reads that overlap with writes which keep the chunks concerned -/
namespace Verif.Overlap
open Verif Verif.Chunked Verif.Rbd Verif.Repo Verif.Files Verif.Backup

/-- All hashes that can be looked up are in `K`. -/
structure Refs (K : Hash → Prop) (s : S) : Prop where
  cached : ∀ id c h, (id, c) ∈ s.f.chunks → c.hash = some h → K h
  mapped : ∀ id h, s.f.mapping.get? id = some h → K h

/-- The chunks in `K` are the same at all times. -/
def Stable (K : Hash → Prop) (at_ : Nat → World) (w : World) : Prop := ∀ n h, K h → (at_ n).chunks.get? h = w.chunks.get? h

theorem readExisting_congr {env : Env} {w w' : World} {c : Chunk}
    (h : ∀ x, c.hash = some x → w'.chunks.get? x = w.chunks.get? x) : c.readExisting env w' = c.readExisting env w := by
  unfold Chunk.readExisting
  cases c.data with
  | some d => rfl
  | none =>
    dsimp only
    cases hh : c.hash with
    | none => rfl
    | some x => dsimp only; rw [h x hh]

theorem read_congr {env : Env} {w w' : World} {c : Chunk}
    (h : ∀ x, c.hash = some x → w'.chunks.get? x = w.chunks.get? x) (off : Nat) (size : Int) :
    c.read env w' off size = c.read env w off size := by
  unfold Chunk.read
  rw [readExisting_congr h]

theorem readExisting_hash {env : Env} {w : World} {c c' : Chunk} (h : c.readExisting env w = .ok c') : c'.hash = c.hash := by
  unfold Chunk.readExisting at h
  split at h
  · cases h; rfl
  · split at h
    · cases h; rfl
    · split at h
      · cases h
      · cases h
      · split at h
        · cases h; rfl
        · cases h

theorem read_hash {env : Env} {w : World} {c c' : Chunk} {off : Nat} {size size' : Int} {d : Bytes}
    (h : c.read env w off size = .ok (d, size', c')) : c'.hash = c.hash := by
  unfold Chunk.read at h
  cases hr : c.readExisting env w with
  | error e => rw [hr] at h; cases h
  | ok c1 =>
    rw [hr] at h
    dsimp only at h
    split at h
    · cases h
    · cases h; exact readExisting_hash hr

theorem Refs.flushChunks {env : Env} {K : Hash → Prop} {s : S} (hq : Quiet s) (h : Refs K s) (t : Nat) :
    Refs K (s.flushChunks env t).2 := by
  unfold S.flushChunks
  split
  · exact h
  · have hperm : s.f.sortedChunks.Perm s.f.chunks := sortBy_perm _ _
    have hm : ∀ e, e ∈ s.f.sortedChunks → e ∈ s.f.chunks := fun e he => hperm.mem_iff.1 he
    dsimp only
    rw [flushList_clean env _ s (fun id ch hx => hq.clean id ch (hm _ (List.mem_of_mem_drop hx)))]
    exact ⟨fun id c x hx => h.cached id c x (hm _ (List.mem_of_mem_take hx)), h.mapped⟩

theorem Refs.currentChunk {env : Env} {K : Hash → Prop} {s : S} (hq : Quiet s) (h : Refs K s) :
    Refs K (s.currentChunk env).2 := by
  unfold S.currentChunk
  dsimp only
  by_cases hh : s.f.chunks.has (s.f.pos / env.cs) = true
  · rw [if_pos hh]
    exact ⟨h.cached, h.mapped⟩
  · rw [if_neg hh]
    obtain ⟨s', e1, e2, e3⟩ := hq.flushChunks (env := env) flushTarget
    have h' := h.flushChunks (env := env) hq flushTarget
    rw [e1] at h' ⊢
    dsimp only at h' ⊢
    refine ⟨?_, h'.mapped⟩
    intro id ch x hx hc
    rcases Dict.mem_set hx with hx | hx
    · simp only [Prod.mk.injEq] at hx
      rw [hx.2] at hc
      exact h'.mapped _ _ hc
    · exact h'.cached id ch x hx hc

/-- The overlapping read gives the same result. -/
theorem readLoop_eq {env : Env} {K : Hash → Prop} {at_ : Nat → World} {w : World} (hst : Stable K at_ w) (fuel : Nat) :
    ∀ {s : S} (size : Int) (acc : Bytes), Quiet s → Refs K s → Ticked w s.w →
      readLoop env at_ fuel s size acc = s.readLoop env fuel size acc ∧ Refs K (s.readLoop env fuel size acc).2 := by
  induction fuel with
  | zero => intro s size acc hq h ht; unfold readLoop S.readLoop; split <;> exact ⟨rfl, h⟩
  | succ n ih =>
    intro s size acc hq h ht
    unfold readLoop S.readLoop
    split
    · exact ⟨rfl, h⟩
    · dsimp only
      obtain ⟨h1, h2⟩ := hq.currentChunk (env := env)
      have h3 := h.currentChunk (env := env) hq
      cases hc : s.currentChunk env with
      | mk a s1 =>
        rw [hc] at h1 h2 h3
        cases a with
        | error e => exact ⟨rfl, h3⟩
        | ok io =>
          obtain ⟨id, off⟩ := io
          dsimp only at h1 h2 h3 ⊢
          cases hg : s1.f.chunks.get? id with
          | none => exact ⟨rfl, h3⟩
          | some c =>
            dsimp only
            have hw : s1.w.chunks = w.chunks := by rw [ht.trans h2]
            rw [read_congr (w := s1.w) (w' := at_ s1.w.tick) (fun x hx => by
              rw [hst _ _ (h3.cached _ _ _ (Dict.mem_of_get? hg) hx), hw])]
            cases hr : c.read env s1.w off size with
            | error e => exact ⟨rfl, h3⟩
            | ok x =>
              obtain ⟨d, sz, c'⟩ := x
              dsimp only
              have hq' : Quiet { s1 with f := { s1.f with chunks := s1.f.chunks.set id c' } } := by
                refine ⟨h1.mode, ?_⟩
                intro i ch hx
                rcases Dict.mem_set hx with hx | hx
                · simp only [Prod.mk.injEq] at hx
                  rw [hx.2, Chunk.read_clean hr]
                  exact h1.clean id c (Dict.mem_of_get? hg)
                · exact h1.clean i ch hx
              have hr' : Refs K { s1 with f := { s1.f with chunks := s1.f.chunks.set id c' } } := by
                refine ⟨?_, h3.mapped⟩
                intro i ch y hx hy
                rcases Dict.mem_set hx with hx | hx
                · simp only [Prod.mk.injEq] at hx
                  rw [hx.2, read_hash hr] at hy
                  exact h3.cached id c y (Dict.mem_of_get? hg) hy
                · exact h3.cached i ch y hx hy
              split
              · exact ⟨rfl, hr'⟩
              · exact ih (s := { s1 with f := { s1.f with chunks := s1.f.chunks.set id c', pos := s1.f.pos + d.length } })
                  sz (acc ++ d) ⟨hq'.mode, hq'.clean⟩ ⟨hr'.cached, hr'.mapped⟩ (ht.trans h2)

theorem read_eq {env : Env} {K : Hash → Prop} {at_ : Nat → World} {w : World} (hst : Stable K at_ w) {s : S} (size : Int)
    (hq : Quiet s) (h : Refs K s) (ht : Ticked w s.w) :
    read env at_ size s = s.read env size ∧ Refs K (s.read env size).2 := by
  unfold read S.read
  split
  · exact ⟨rfl, h⟩
  · exact readLoop_eq hst _ _ _ hq h ht

theorem copyLoop_eq {env : Env} {K : Hash → Prop} {at_ : Nat → World} {w : World} (hst : Stable K at_ w) (fuel : Nat) :
    ∀ {s : S} (t : PFile), Quiet s → Refs K s → Ticked w s.w → copyLoop env at_ fuel s t = Files.copyLoop env fuel s t := by
  induction fuel with
  | zero => intro s t _ _ _; rfl
  | succ n ih =>
    intro s t hq h ht
    rw [copyLoop, Files.copyLoop, readS]
    obtain ⟨e, h'⟩ := read_eq hst env.blk hq h ht (env := env)
    obtain ⟨hq', ht'⟩ := hq.read (env := env) env.blk
    rw [e]
    cases hr : s.read env env.blk with
    | mk a s1 =>
      rw [hr] at h' hq' ht'
      cases a with
      | error e => rfl
      | ok chunk =>
        dsimp only
        split
        · rfl
        · exact ih _ hq' h' (ht.trans ht')

theorem stdoutLoop_eq {env : Env} {K : Hash → Prop} {at_ : Nat → World} {w : World} (hst : Stable K at_ w) (fuel : Nat) :
    ∀ {s : S} (out : Bytes), Quiet s → Refs K s → Ticked w s.w → stdoutLoop env at_ fuel s out = Files.stdoutLoop env fuel s out := by
  induction fuel with
  | zero => intro s t _ _ _; rfl
  | succ n ih =>
    intro s t hq h ht
    rw [stdoutLoop, Files.stdoutLoop, readS]
    obtain ⟨e, h'⟩ := read_eq hst env.blk hq h ht (env := env)
    obtain ⟨hq', ht'⟩ := hq.read (env := env) env.blk
    rw [e]
    cases hr : s.read env env.blk with
    | mk a s1 =>
      rw [hr] at h' hq' ht'
      cases a with
      | error e => rfl
      | ok chunk =>
        dsimp only
        split
        · rfl
        · exact ih _ hq' h' (ht.trans ht')

/-- Seeking within the file changes nothing but the position. -/
theorem seek_within {env : Env} {s : S} (o : Int) (wh : Whence) {n : Int} (ht : s.f.seekTarget o wh = .ok n)
    (hn : n.toNat ≤ s.f.size) : ∃ p, (s.seek env o wh).2 = { s with f := { s.f with pos := p } } := by
  unfold S.seek
  split
  · exact ⟨s.f.pos, rfl⟩
  · rw [ht]
    dsimp only
    split
    · exact ⟨s.f.pos, rfl⟩
    · rw [if_neg (by omega)]
      exact ⟨_, rfl⟩

theorem copy_eq {env : Env} {K : Hash → Prop} {at_ : Nat → World} {w : World} (hst : Stable K at_ w) {s : S} (t : PFile)
    (hq : Quiet s) (h : Refs K s) (ht : Ticked w s.w) : copy env at_ s t = Files.copy env s t := by
  unfold copy Files.copy
  obtain ⟨p, hp⟩ := seek_within (env := env) (s := s) 0 .end_ rfl (by simp)
  cases h1 : s.seek env 0 .end_ with
  | mk a s1 =>
    rw [h1] at hp
    dsimp only at hp
    cases a with
    | error e => rfl
    | ok n =>
      dsimp only
      obtain ⟨q, hq2⟩ := seek_within (env := env) (s := s1) 0 .set rfl (by simp)
      cases h2 : s1.seek env 0 .set with
      | mk b s2 =>
        rw [h2] at hq2
        dsimp only at hq2
        cases b with
        | error e => rfl
        | ok n =>
          dsimp only
          rw [copyLoop_eq hst _ t (s := s2) (by rw [hq2, hp]; exact ⟨hq.mode, hq.clean⟩)
            (by rw [hq2, hp]; exact ⟨h.cached, h.mapped⟩) (by rw [hq2, hp]; exact ht)]
          rfl

theorem firstBad_eq {env : Env} {at_ : Nat → World} {w : World} : ∀ (l : List Hash) (n : Nat),
    Stable (fun h => h ∈ l) at_ w → firstBad env at_ l n = Backup.firstBad env w l
  | [], _, _ => rfl
  | h :: l, n, hst => by
    rw [firstBad, Backup.firstBad, readExisting_congr (w := w) (w' := at_ n) (fun x hx => by
      cases hx; exact hst n h (by simp))]
    cases (Chunk.new (some h)).readExisting env w with
    | error e => rfl
    | ok c => exact firstBad_eq l (n + 1) (fun m x hx => hst m x (List.mem_cons_of_mem _ hx))

/-- The hashes an image refers to. -/
def Mapped (w : World) (name : String) (h : Hash) : Prop :=
  ∃ m, w.metas.get? name = some (some m) ∧ h ∈ m.mapping.values

theorem open_refs {w : World} {name : String} {s : S} (h : File.open w name rb = .ok s) : Refs (Mapped w name) s ∧ Quiet s ∧ s.w = w := by
  unfold File.open at h
  split at h
  · rw [if_pos (show rb.w = false from rfl)] at h; cases h
  · cases h
  · rename_i m hm
    cases h
    exact ⟨⟨by intro id c x hx; simp at hx, fun id x hx => ⟨m, hm, Verif.Rbd.mem_values_of_get? hx⟩⟩, ⟨rfl, by intro id c hx; simp at hx⟩, rfl⟩

/-- If the chunks of the image stay as they are, restoring is not disturbed. -/
theorem restore_eq {env : Env} {at_ : Nat → World} {w : World} {r : Rev} (hst : Stable (Mapped w r.uuid) at_ w)
    (target : Option Bytes) : restore env at_ w r target = Files.restore env w r target := by
  unfold restore Files.restore
  cases ho : File.open w r.uuid rb with
  | error e => rfl
  | ok s =>
    obtain ⟨h1, h2, h3⟩ := open_refs ho
    dsimp only
    unfold restoreFile Files.restoreFile
    rw [copy_eq hst _ h2 h1 (by rw [h3]; exact Ticked.refl w)]

theorem restoreOut_eq {env : Env} {at_ : Nat → World} {w : World} {r : Rev} (hst : Stable (Mapped w r.uuid) at_ w) :
    restoreOut env at_ w r = Files.restoreOut env w r := by
  unfold restoreOut Files.restoreOut
  cases ho : File.open w r.uuid rb with
  | error e => rfl
  | ok s =>
    obtain ⟨h1, h2, h3⟩ := open_refs ho
    dsimp only
    unfold Files.restoreStdout
    rw [stdoutLoop_eq hst _ _ h2 h1 (by rw [h3]; exact Ticked.refl w)]

end Verif.Overlap
