import Verif.Model.ChunkedOps
/-!
# The ghost log of hashed contents only grows

Helper lemmas for the refinement proof.
-/
namespace Verif.Chunked
open Verif Verif.Spec

theorem Chunk.flush_log {env : Env} {w : World} {c : Chunk} {r}
    (h : c.flush env w = .ok r) : w.log ⊆ r.2.2.log := by
  unfold Chunk.flush at h
  split at h
  · cases h; exact fun _ h => h
  · split at h
    · cases h
    · rename_i d _
      simp only [Except.ok.injEq] at h
      subst h
      intro x hx
      dsimp only
      split <;> try split
      all_goals simp [hx]

theorem flushList_log (env : Env) (l : List (Nat × Chunk)) (s : S) :
    s.w.log ⊆ (flushList env l s).2.w.log := by
  induction l generalizing s with
  | nil => exact fun _ h => h
  | cons e l ih =>
    obtain ⟨id, c⟩ := e
    unfold flushList
    split
    · exact fun _ h => h
    · rename_i h? c' w hf
      have h1 : s.w.log ⊆ w.log := Chunk.flush_log hf
      split
      · exact fun x hx => ih ⟨s.f, w⟩ (h1 hx)
      · exact fun x hx => ih ⟨_, w⟩ (h1 hx)

theorem S.flushChunks_log (env : Env) (t : Nat) (s : S) :
    s.w.log ⊆ (s.flushChunks env t).2.w.log := by
  unfold S.flushChunks
  split
  · exact fun _ h => h
  · have h := flushList_log env (s.f.sortedChunks.drop t) s
    dsimp only
    split <;> (rename_i heq; rw [heq] at h; exact h)

theorem S.flush_log (env : Env) (s : S) : s.w.log ⊆ (s.flush env).2.w.log := by
  unfold S.flush
  split
  · exact fun _ h => h
  · have h := S.flushChunks_log env 0 s
    split <;> (rename_i heq; rw [heq] at h; exact h)

theorem S.close_log (env : Env) (s : S) : s.w.log ⊆ (s.close env).2.w.log := by
  unfold S.close
  split
  · exact fun _ h => h
  · split
    · have h := S.flush_log env s
      split <;> (rename_i heq; rw [heq] at h; exact h)
    · exact fun _ h => h

theorem S.currentChunk_log (env : Env) (s : S) : s.w.log ⊆ (s.currentChunk env).2.w.log := by
  unfold S.currentChunk
  dsimp only
  by_cases hh : s.f.chunks.has (s.f.pos / env.cs) = true
  · simp only [hh, if_true]; exact fun _ h => h
  · simp only [hh, Bool.false_eq_true, if_false]
    have h := S.flushChunks_log env flushTarget s
    cases hr : s.flushChunks env flushTarget with
    | mk a b =>
      rw [hr] at h
      cases a <;> exact h

theorem S.readLoop_log (env : Env) (fuel : Nat) (s : S) (size : Int) (acc : Bytes) :
    s.w.log ⊆ (s.readLoop env fuel size acc).2.w.log := by
  induction fuel generalizing s size acc with
  | zero => unfold S.readLoop; split <;> exact fun _ h => h
  | succ n ih =>
    unfold S.readLoop
    split
    · exact fun _ h => h
    · dsimp only
      have h := S.currentChunk_log env s
      split
      · rename_i heq; rw [heq] at h; exact h
      · rename_i heq; rw [heq] at h
        split
        · exact h
        · split
          · exact h
          · split
            · exact h
            · intro x hx; exact ih _ _ _ (h hx)

theorem S.read_log (env : Env) (n : Int) (s : S) : s.w.log ⊆ (s.read env n).2.w.log := by
  unfold S.read
  split
  · exact fun _ h => h
  · exact S.readLoop_log _ _ _ _ _

theorem S.writeLoop_log (env : Env) (s : S) (data : Bytes) :
    s.w.log ⊆ (s.writeLoop env data).2.w.log := by
  fun_induction S.writeLoop env s data with
  | case1 => exact fun _ h => h
  | case2 s data _ e s' heq => have h := S.currentChunk_log env s; rw [heq] at h; exact h
  | case3 s data _ id off s' heq => have h := S.currentChunk_log env s; rw [heq] at h; exact h
  | case4 s data _ id off s' heq => have h := S.currentChunk_log env s; rw [heq] at h; exact h
  | case5 s data _ id off s' heq =>
    rename_i ih
    have h := S.currentChunk_log env s; rw [heq] at h
    exact fun x hx => ih (h hx)
  | case6 s data _ id off s' heq => have h := S.currentChunk_log env s; rw [heq] at h; exact h

theorem S.write_log (env : Env) (d : Bytes) (s : S) : s.w.log ⊆ (s.write env d).2.w.log := by
  unfold S.write
  split
  · exact fun _ h => h
  · exact S.writeLoop_log _ _ _

theorem S.fill_log (env : Env) (s : S) (n : Nat) : s.w.log ⊆ (s.fill env n).2.w.log := by
  fun_induction S.fill env s n with
  | case1 => exact fun _ h => h
  | case2 s n => rename_i heq; have h := S.write_log env (zeros (min n env.blk)) s; rw [heq] at h; exact h
  | case3 s n =>
    rename_i heq ih
    have h := S.write_log env (zeros (min n env.blk)) s; rw [heq] at h
    exact fun x hx => ih (h hx)

theorem S.seek_log (env : Env) (o : Int) (wh : Whence) (s : S) :
    s.w.log ⊆ (s.seek env o wh).2.w.log := by
  unfold S.seek
  split
  · exact fun _ h => h
  · generalize s.f.seekTarget o wh = t
    cases t with
    | error e => exact fun _ h => h
    | ok p =>
      dsimp only
      split
      · exact fun _ h => h
      · split
        · have h := S.fill_log env { s with f := { s.f with pos := s.f.size } } (p.toNat - s.f.size)
          split
          · rename_i heq; rw [heq] at h; exact h
          · rename_i heq; rw [heq] at h
            split <;> exact h
        · exact fun _ h => h

theorem S.truncate_log (env : Env) (n : Option Nat) (s : S) :
    s.w.log ⊆ (s.truncate env n).2.w.log := by
  unfold S.truncate
  split
  · exact fun _ h => h
  · intro x hx
    exact S.flush_log env _ hx

theorem S.step_log (env : Env) (s : S) (op : Op) : s.w.log ⊆ (s.step env op).1.w.log := by
  cases op with
  | seek o wh => exact S.seek_log env o wh s
  | write d => exact S.write_log env d s
  | read n => exact S.read_log env _ s
  | truncate => exact S.truncate_log env none s
  | flush => exact S.flush_log env s
  | tell =>
    show s.w.log ⊆ s.tell.2.w.log
    unfold S.tell; split <;> exact fun _ h => h
  | close => exact S.close_log env s

theorem S.run_log (env : Env) (s : S) (ops : List Op) : s.w.log ⊆ (s.run env ops).w.log := by
  induction ops generalizing s with
  | nil => exact fun _ h => h
  | cons op ops ih =>
    intro x hx
    exact ih (s.step env op).1 (S.step_log env s op hx)

end Verif.Chunked
