import Verif.Spec.Beside
import Verif.Proofs.ChunkedLog
import Verif.Proofs.BackupRun
/-!
# What others do beside a backup without removing chunk files is invisible to it
-/
namespace Verif.Beside
open Verif Verif.Chunked Verif.Spec Verif.Rbd Verif.Repo Verif.Files Verif.Diff Verif.Backup

/-- The directory beside others and the directory alone. -/
structure Like (env : Env) (L : List Bytes) (name : String) (v w : World) : Prop where
  chunks : ∀ h d, w.chunks.get? h = some (some d) → v.chunks.get? h = some (some d)
  good : Sound env L v
  alone : ∀ h x, w.chunks.get? h = some x → ∃ d, x = some d ∧ env.H d = h ∧ d ∈ L
  small : ∀ h d, v.chunks.get? h = some (some d) → w.chunks.get? h = some (some d) ∨ d.length ≤ env.cs
  metas : v.metas.get? name = w.metas.get? name
  seen : v.seen = w.seen
  force : v.force = w.force
  tick : v.tick = w.tick

/-- The same `File` object, like directories. -/
structure Sim (env : Env) (L : List Bytes) (name : String) (t : T) (s : S) : Prop where
  file : t.s.f = s.f
  named : s.f.name = name
  like : Like env L name t.s.w s.w

/-- All turns are harmless. -/
def AllHarmless (env : Env) (L : List Bytes) (name : String) (i : Others) : Prop :=
  ∀ n w, Sound env L w → Harmless env L [name] w (i n w)

theorem Harmless.sound {env : Env} {L : List Bytes} {keep : List String} {w w' : World} (h : Harmless env L keep w w')
    (hs : Sound env L w) : Sound env L w' := by
  refine ⟨fun x y hy => ?_, h.log⟩
  rcases h.added x y hy with h1 | ⟨d, h1, h2, h3, _⟩
  · obtain ⟨d, q1, q2, q3⟩ := hs.files x y h1
    exact ⟨d, q1, q2, h.older q3⟩
  · exact ⟨d, h1, h2, h3⟩

theorem Like.turn {env : Env} {L : List Bytes} {name : String} {i : Others} (hi : AllHarmless env L name i) {v w : World}
    (h : Like env L name v w) (n : Nat) : Like env L name (i n v) w := by
  have hh := hi n v h.good
  refine ⟨fun x d hx => hh.kept x d (h.chunks x d hx), hh.sound h.good, h.alone, ?_, (hh.metas name (by simp)).trans h.metas,
    hh.seen.trans h.seen, hh.force.trans h.force, hh.tick.trans h.tick⟩
  intro x d hx
  rcases hh.added x _ hx with h1 | ⟨d', h1, _, _, h4⟩
  · exact h.small x d h1
  · cases h1
    exact .inr h4

theorem Sim.turn {env : Env} {L : List Bytes} {name : String} {i : Others} {t : T} {s : S} (h : Sim env L name t s)
    (hi : AllHarmless env L name i) : Sim env L name (t.turn i) s := ⟨h.file, h.named, h.like.turn hi t.n⟩

/-- Both runs have the same result and end in like states. -/
structure Agree (env : Env) (L : List Bytes) (name : String) {α : Type} (r' : Except PyErr α × T) (r : Except PyErr α × S) :
    Prop where
  res : r'.1 = r.1
  sim : Sim env L name r'.2 r.2

theorem Like.readExisting {env : Env} {L : List Bytes} {name : String} {v w : World} (h : Like env L name v w) (c : Chunk)
    (hne : c.readExisting env w ≠ .error .backend) : c.readExisting env v = c.readExisting env w := by
  unfold Chunk.readExisting at *
  cases hd : c.data with
  | some d => rfl
  | none =>
    cases hc : c.hash with
    | none => rfl
    | some x =>
      simp only [hc, hd] at hne ⊢
      cases hg : w.chunks.get? x with
      | none => simp [hg] at hne
      | some y =>
        cases y with
        | none => simp [hg] at hne
        | some d => simp only [h.chunks x d hg]

theorem Like.flush {env : Env} {L : List Bytes} (hL : CollFree env.H L) {name : String} {v w : World}
    (h : Like env L name v w) (c : Chunk) :
    (∀ e, c.flush env w = .error e → c.flush env v = .error e) ∧
    ∀ x c' w', c.flush env w = .ok (x, c', w') → w'.log ⊆ L →
      ∃ v', c.flush env v = .ok (x, c', v') ∧ Like env L name v' w' := by
  unfold Chunk.flush
  cases hc : c.clean with
  | true => exact ⟨by simp, by simp; exact fun _ => h⟩
  | false =>
    cases hd : c.data with
    | none => simp
    | some d =>
      refine ⟨by simp, ?_⟩
      simp only [Bool.false_eq_true, if_false, Except.ok.injEq, Prod.mk.injEq]
      rintro x c' w' ⟨rfl, rfl, rfl⟩ hlog
      refine ⟨_, ⟨rfl, rfl, rfl⟩, ?_⟩
      have hdL : d ∈ L := by
        apply hlog
        split
        · simp
        · split <;> simp
      rw [h.seen, h.force]
      by_cases hs : env.H d ∈ w.seen
      · simp only [hs, if_true]
        exact ⟨h.chunks, ⟨fun y z hz => (by
            obtain ⟨d', q1, q2, q3⟩ := h.good.files y z hz
            exact ⟨d', q1, q2, List.mem_cons_of_mem _ q3⟩), fun y hy => (by
            rcases List.mem_cons.1 hy with rfl | hy
            · exact hdL
            · exact h.good.log hy)⟩, h.alone, h.small, h.metas, rfl, rfl, h.tick⟩
      · simp only [hs, if_false]
        have hget : ∀ (ch : Dict Hash (Option Bytes)) (y : Hash),
            (∀ z, ch.get? (env.H d) = some z → z = some d) →
            (if w.force = true ∨ ch.has (env.H d) = false then ch.set (env.H d) (some d) else ch).get? y =
              if y = env.H d then some (some d) else ch.get? y := by
          intro ch y hsame
          by_cases hy : y = env.H d
          · subst hy
            rw [if_pos rfl]
            split
            · rw [Dict.get?_set_self]
            · rename_i hh
              simp only [not_or, Bool.not_eq_false] at hh
              have : ∃ x, ch.get? (env.H d) = some x := by
                simpa [Dict.has, Option.isSome_iff_exists] using hh.2
              obtain ⟨z, hz⟩ := this
              rw [hz, hsame z hz]
          · rw [if_neg hy]
            split
            · rw [Dict.get?_set, if_neg hy]
            · rfl
        have hv : ∀ y, v.chunks.get? (env.H d) = some y → y = some d := by
          intro y hy
          obtain ⟨d', h1, h2, h3⟩ := h.good.files _ _ hy
          rw [h1, hL d' (h.good.log h3) d hdL h2]
        have hw : ∀ y, w.chunks.get? (env.H d) = some y → y = some d := by
          intro y hy
          obtain ⟨d', h1, h2, h3⟩ := h.alone _ _ hy
          rw [h1, hL d' h3 d hdL h2]
        have hcv : ∀ y, (if w.force = true ∨ v.chunks.has (env.H d) = false then
            ({ v with chunks := v.chunks.set (env.H d) (some d), seen := w.seen, force := w.force, log := d :: v.log } : World)
            else { v with seen := w.seen, force := w.force, log := d :: v.log }).chunks.get? y =
              if y = env.H d then some (some d) else v.chunks.get? y := by
          intro y
          rw [← hget v.chunks y hv]
          split <;> rfl
        have hcw : ∀ y, (if w.force = true ∨ w.chunks.has (env.H d) = false then
            ({ w with chunks := w.chunks.set (env.H d) (some d), log := d :: w.log } : World)
            else { w with log := d :: w.log }).chunks.get? y =
              if y = env.H d then some (some d) else w.chunks.get? y := by
          intro y
          rw [← hget w.chunks y hw]
          split <;> rfl
        have hlv : (if w.force = true ∨ v.chunks.has (env.H d) = false then
            ({ v with chunks := v.chunks.set (env.H d) (some d), seen := w.seen, force := w.force, log := d :: v.log } : World)
            else { v with seen := w.seen, force := w.force, log := d :: v.log }).log = d :: v.log := by
          split <;> rfl
        refine ⟨?_, ⟨?_, ?_⟩, ?_, ?_, ?_, ?_, ?_, ?_⟩
        · intro y d' hy
          rw [show _ = _ from hcw y] at hy
          rw [show _ = _ from hcv y]
          split at hy
          · rename_i he; rw [if_pos he]; exact hy
          · rename_i he; rw [if_neg he]; exact h.chunks y d' hy
        · intro y z hz
          rw [show _ = _ from hcv y] at hz
          suffices hsuf : ∃ d', z = some d' ∧ env.H d' = y ∧ d' ∈ d :: v.log by
            obtain ⟨d', q1, q2, q3⟩ := hsuf
            rw [← hlv] at q3
            exact ⟨d', q1, q2, q3⟩
          split at hz
          · rename_i he
            cases hz
            exact ⟨d, rfl, he.symm, List.mem_cons_self⟩
          · obtain ⟨d', q1, q2, q3⟩ := h.good.files y z hz
            exact ⟨d', q1, q2, List.mem_cons_of_mem _ q3⟩
        · intro y hy
          have hy : y ∈ d :: v.log := by
            rw [← hlv]; exact hy
          rcases List.mem_cons.1 hy with rfl | hy
          · exact hdL
          · exact h.good.log hy
        · intro y z hz
          rw [show _ = _ from hcw y] at hz
          split at hz
          · rename_i he
            cases hz
            exact ⟨d, rfl, he.symm, hdL⟩
          · exact h.alone y z hz
        · intro y d' hy
          rw [show _ = _ from hcv y] at hy
          rw [show _ = _ from hcw y]
          split at hy
          · rename_i he; rw [if_pos he]; exact .inl hy
          · rename_i he; rw [if_neg he]; exact h.small y d' hy
        · split <;> split <;> exact h.metas
        · split <;> split <;> rfl
        · split <;> split <;> rfl
        · split <;> split <;> exact h.tick

section
variable {env : Env} {L : List Bytes} {name : String} {i : Others}

theorem flushList_sim (hL : CollFree env.H L) (hi : AllHarmless env L name i) (l : List (Nat × Chunk)) :
    ∀ {t : T} {s : S}, Sim env L name t s → (Chunked.flushList env l s).2.w.log ⊆ L →
      Agree env L name (flushList env i l t) (Chunked.flushList env l s) := by
  induction l with
  | nil => intro t s h _; exact ⟨rfl, h⟩
  | cons a l ih =>
    intro t s h hlog
    obtain ⟨id, c⟩ := a
    have ht := h.turn hi
    obtain ⟨he, ho⟩ := ht.like.flush hL c
    simp only [flushList, Chunked.flushList] at hlog ⊢
    cases hf : c.flush env s.w with
    | error e =>
      rw [he e hf]
      exact ⟨rfl, ht⟩
    | ok r =>
      obtain ⟨x, c', w'⟩ := r
      simp only [hf] at hlog
      have hw' : w'.log ⊆ L := by
        cases x with
        | none => exact List.Subset.trans (flushList_log env l ⟨s.f, w'⟩) hlog
        | some y => exact List.Subset.trans (flushList_log env l ⟨{ s.f with mapping := s.f.mapping.set id y }, w'⟩) hlog
      obtain ⟨v', hv, hlike⟩ := ho x c' w' hf hw'
      rw [hv]
      cases x with
      | none => exact ih ⟨h.file, h.named, hlike⟩ hlog
      | some y =>
        refine ih ⟨?_, h.named, hlike⟩ hlog
        show ({ t.s.f with mapping := t.s.f.mapping.set id y } : File) = _
        rw [h.file]

theorem flushChunks_sim (hL : CollFree env.H L) (hi : AllHarmless env L name i) (target : Nat) {t : T} {s : S}
    (h : Sim env L name t s) (hlog : (s.flushChunks env target).2.w.log ⊆ L) :
    Agree env L name (flushChunks env i target t) (s.flushChunks env target) := by
  simp only [flushChunks, S.flushChunks, h.file] at hlog ⊢
  split
  · exact ⟨rfl, h⟩
  · rename_i hlen
    rw [if_neg hlen] at hlog
    have hl : (Chunked.flushList env (s.f.sortedChunks.drop target) s).2.w.log ⊆ L := by
      revert hlog
      generalize Chunked.flushList env (s.f.sortedChunks.drop target) s = g
      obtain ⟨g1, g2⟩ := g
      cases g1 <;> exact id
    have ha := flushList_sim hL hi (s.f.sortedChunks.drop target) h hl
    generalize Chunked.flushList env (s.f.sortedChunks.drop target) s = g at *
    generalize flushList env i (s.f.sortedChunks.drop target) t = g' at *
    obtain ⟨g1, g2⟩ := g
    obtain ⟨g1', g2'⟩ := g'
    obtain ⟨hr, hs⟩ := ha
    dsimp only at hr hs
    subst hr
    cases g1' with
    | error e => exact ⟨rfl, hs⟩
    | ok _ =>
      refine ⟨rfl, ?_, hs.named, hs.like⟩
      show ({ g2'.s.f with chunks := _ } : File) = _
      rw [hs.file]

theorem flush_sim (hL : CollFree env.H L) (hi : AllHarmless env L name i) {t : T} {s : S}
    (h : Sim env L name t s) (hlog : (s.flush env).2.w.log ⊆ L) :
    Agree env L name (flush env i t) (s.flush env) := by
  simp only [flush, S.flush, h.file] at hlog ⊢
  split
  · exact ⟨rfl, h⟩
  · rename_i hlen
    rw [if_neg hlen] at hlog
    have hl : (s.flushChunks env 0).2.w.log ⊆ L := by
      revert hlog
      generalize s.flushChunks env 0 = g
      obtain ⟨g1, g2⟩ := g
      cases g1 <;> exact id
    have ha := flushChunks_sim hL hi 0 h hl
    generalize s.flushChunks env 0 = g at *
    generalize flushChunks env i 0 t = g' at *
    obtain ⟨g1, g2⟩ := g
    obtain ⟨g1', g2'⟩ := g'
    obtain ⟨hr, hs⟩ := ha
    dsimp only at hr hs
    subst hr
    cases g1' with
    | error e => exact ⟨rfl, hs⟩
    | ok _ =>
      have ht := hs.turn hi
      refine ⟨rfl, ht.file, ht.named, ht.like.chunks, ⟨ht.like.good.files, ht.like.good.log⟩, ht.like.alone, ht.like.small, ?_, ht.like.seen,
        ht.like.force, ht.like.tick⟩
      show Dict.get? (Dict.set (g2'.turn i).s.w.metas (g2'.turn i).s.f.name _) name = Dict.get? (Dict.set g2.w.metas g2.f.name _) name
      rw [ht.file, hs.named, Dict.get?_set_self, Dict.get?_set_self]

theorem close_sim (hL : CollFree env.H L) (hi : AllHarmless env L name i) {t : T} {s : S}
    (h : Sim env L name t s) (hlog : (s.close env).2.w.log ⊆ L) :
    Agree env L name (close env i t) (s.close env) := by
  simp only [close, S.close, h.file] at hlog ⊢
  split
  · exact ⟨rfl, h⟩
  · rename_i hlen
    rw [if_neg hlen] at hlog
    have hcl : ∀ {t : T} {s : S}, Sim env L name t s → Sim env L name t.closed { s with f := { s.f with closed := true } } := by
      intro t s h
      refine ⟨?_, h.named, h.like⟩
      show ({ t.s.f with closed := true } : File) = _
      rw [h.file]
    split
    · rename_i hw
      rw [if_pos hw] at hlog
      have hl : (s.flush env).2.w.log ⊆ L := by
        revert hlog
        generalize s.flush env = g
        obtain ⟨g1, g2⟩ := g
        cases g1 <;> exact id
      have ha := flush_sim hL hi h hl
      generalize s.flush env = g at *
      generalize flush env i t = g' at *
      obtain ⟨g1, g2⟩ := g
      obtain ⟨g1', g2'⟩ := g'
      obtain ⟨hr, hs⟩ := ha
      dsimp only at hr hs
      subst hr
      cases g1' with
      | error e => exact ⟨rfl, hs⟩
      | ok _ => exact ⟨rfl, hcl hs⟩
    · exact ⟨rfl, hcl h⟩

theorem currentChunk_sim (hL : CollFree env.H L) (hi : AllHarmless env L name i) {t : T} {s : S}
    (h : Sim env L name t s) (hlog : (s.currentChunk env).2.w.log ⊆ L) :
    Agree env L name (currentChunk env i t) (s.currentChunk env) := by
  have htouch : ∀ {t : T} {s : S} (id : Nat), Sim env L name t s → Sim env L name (t.touch env id)
      { f := { s.f with stats := s.f.stats.set id ((s.f.stat id).1 + 1, env.now s.w.tick) },
        w := { s.w with tick := s.w.tick + 1 } } := by
    intro t s id h
    refine ⟨?_, h.named, h.like.chunks, ⟨h.like.good.files, h.like.good.log⟩, h.like.alone, h.like.small, h.like.metas, h.like.seen,
      h.like.force, ?_⟩
    · show ({ t.s.f with stats := _ } : File) = _
      rw [h.file, h.like.tick]
    · show t.s.w.tick + 1 = s.w.tick + 1
      rw [h.like.tick]
  simp only [currentChunk, ensureChunk, S.currentChunk, h.file] at hlog ⊢
  by_cases hh : s.f.chunks.has (s.f.pos / env.cs) = true
  · simp only [if_pos hh]
    exact ⟨rfl, htouch _ h⟩
  · simp only [if_neg hh] at hlog ⊢
    have hl : (s.flushChunks env flushTarget).2.w.log ⊆ L := by
      revert hlog
      generalize s.flushChunks env flushTarget = g
      obtain ⟨g1, g2⟩ := g
      cases g1 <;> exact id
    have ha := flushChunks_sim hL hi flushTarget h hl
    generalize s.flushChunks env flushTarget = g at *
    generalize flushChunks env i flushTarget t = g' at *
    obtain ⟨g1, g2⟩ := g
    obtain ⟨g1', g2'⟩ := g'
    obtain ⟨hr, hs⟩ := ha
    dsimp only at hr hs
    subst hr
    cases g1' with
    | error e => exact ⟨rfl, hs⟩
    | ok _ =>
      refine ⟨rfl, ?_⟩
      have : Sim env L name (g2'.loadChunk (s.f.pos / env.cs)) { g2 with f := { g2.f with
          chunks := g2.f.chunks.set (s.f.pos / env.cs) (Chunk.new (g2.f.mapping.get? (s.f.pos / env.cs))) } } := by
        refine ⟨?_, hs.named, hs.like⟩
        show ({ g2'.s.f with chunks := _ } : File) = _
        rw [hs.file]
      exact htouch _ this

theorem Like.read {v w : World} (h : Like env L name v w) (c : Chunk) (off : Nat) (size : Int)
    (hne : c.read env w off size ≠ .error .backend) : c.read env v off size = c.read env w off size := by
  have : c.readExisting env w ≠ .error .backend := by
    intro hh
    simp [Chunk.read, hh] at hne
  simp only [Chunk.read, h.readExisting c this]

theorem Like.write {v w : World} (h : Like env L name v w) (c : Chunk) (off : Nat) (data : Bytes)
    (hne : c.write env w off data ≠ .error .backend) : c.write env v off data = c.write env w off data := by
  simp only [Chunk.write] at hne ⊢
  split
  · rfl
  · rename_i hf
    rw [if_neg hf] at hne
    have : c.readExisting env w ≠ .error .backend := by
      intro hh
      simp [hh] at hne
    rw [h.readExisting c this]

theorem Sim.afterRead {t : T} {s : S} (h : Sim env L name t s) (id : Nat) (c : Chunk) (k : Nat) :
    Sim env L name (t.afterRead id c k) { s with f := { s.f with chunks := s.f.chunks.set id c, pos := s.f.pos + k } } := by
  refine ⟨?_, h.named, h.like⟩
  show ({ t.s.f with chunks := _, pos := _ } : File) = _
  rw [h.file]

theorem readLoop_sim (hL : CollFree env.H L) (hi : AllHarmless env L name i) (fuel : Nat) :
    ∀ {t : T} {s : S} (size : Int) (acc : Bytes), Sim env L name t s → (s.readLoop env fuel size acc).2.w.log ⊆ L →
      (s.readLoop env fuel size acc).1 ≠ .error .backend →
      Agree env L name (readLoop env i fuel t size acc) (s.readLoop env fuel size acc) := by
  induction fuel with
  | zero =>
    intro t s size acc h hlog hne
    unfold S.readLoop readLoop
    split
    · exact ⟨rfl, h⟩
    · exact ⟨rfl, h⟩
  | succ fuel ih =>
    intro t s size acc h hlog hne
    unfold S.readLoop at hlog hne ⊢
    unfold readLoop
    by_cases hz : size = 0
    · rw [if_pos hz, if_pos hz]
      exact ⟨rfl, h⟩
    · rw [if_neg hz] at hlog hne ⊢
      rw [if_neg hz]
      have hl : (s.currentChunk env).2.w.log ⊆ L := by
        refine List.Subset.trans ?_ hlog
        generalize s.currentChunk env = g
        obtain ⟨g1, g2⟩ := g
        cases g1 with
        | error e => exact List.Subset.refl _
        | ok x =>
          obtain ⟨id, off⟩ := x
          dsimp only
          split
          · exact List.Subset.refl _
          · split
            · exact List.Subset.refl _
            · split
              · exact List.Subset.refl _
              · intro x hx; exact S.readLoop_log _ _ _ _ _ hx
      have ha := currentChunk_sim hL hi h hl
      generalize s.currentChunk env = g at *
      generalize currentChunk env i t = g' at *
      obtain ⟨g1, g2⟩ := g
      obtain ⟨g1', g2'⟩ := g'
      obtain ⟨hr, hs⟩ := ha
      dsimp only at hr hs
      subst hr
      cases g1' with
      | error e => exact ⟨rfl, hs⟩
      | ok x =>
        obtain ⟨id, off⟩ := x
        dsimp only at hlog hne ⊢
        rw [hs.file]
        cases hg : g2.f.chunks.get? id with
        | none => exact ⟨rfl, hs⟩
        | some c =>
          rw [hg] at hlog hne
          dsimp only at hlog hne ⊢
          have ht := hs.turn hi
          have hcr : c.read env g2.w off size ≠ .error .backend := by
            intro hh
            rw [hh] at hne
            exact hne rfl
          rw [ht.like.read c off size hcr]
          cases hc : c.read env g2.w off size with
          | error e => exact ⟨rfl, ht⟩
          | ok r =>
            obtain ⟨data, size', c'⟩ := r
            rw [hc] at hlog hne
            dsimp only at hlog hne ⊢
            by_cases hd : data = []
            · rw [if_pos hd, if_pos hd]
              exact ⟨rfl, ht.afterRead id c' 0⟩
            · rw [if_neg hd] at hlog hne ⊢
              rw [if_neg hd]
              exact ih size' (acc ++ data) (ht.afterRead id c' data.length) hlog hne

theorem read_sim (hL : CollFree env.H L) (hi : AllHarmless env L name i) (size : Int) {t : T} {s : S}
    (h : Sim env L name t s) (hlog : (s.read env size).2.w.log ⊆ L) (hne : (s.read env size).1 ≠ .error .backend) :
    Agree env L name (read env i size t) (s.read env size) := by
  simp only [read, S.read, h.file] at hlog hne ⊢
  split
  · exact ⟨rfl, h⟩
  · rename_i hm
    rw [if_neg hm] at hlog hne
    exact readLoop_sim hL hi _ _ _ h hlog hne

theorem Sim.afterWrite {t : T} {s : S} (h : Sim env L name t s) (id : Nat) (c : Chunk) (k : Nat) :
    Sim env L name (t.afterWrite id c k) { s with f := { s.f with
      chunks := s.f.chunks.set id c, pos := s.f.pos + k, size := max s.f.size (s.f.pos + k) } } := by
  refine ⟨?_, h.named, h.like⟩
  show ({ t.s.f with chunks := _, pos := _, size := _ } : File) = _
  rw [h.file]

theorem writeLoop_sim (hL : CollFree env.H L) (hi : AllHarmless env L name i) (n : Nat) :
    ∀ {t : T} {s : S} (data : Bytes), data.length = n → Sim env L name t s → (s.writeLoop env data).2.w.log ⊆ L →
      (s.writeLoop env data).1 ≠ .error .backend →
      Agree env L name (writeLoop env i t data) (s.writeLoop env data) := by
  induction n using Nat.strongRecOn with
  | ind n ih =>
    intro t s data hn h hlog hne
    unfold S.writeLoop at hlog hne ⊢
    unfold writeLoop
    by_cases hz : data = []
    · rw [if_pos hz, if_pos hz]
      exact ⟨rfl, h⟩
    · rw [if_neg hz] at hlog hne ⊢
      rw [if_neg hz]
      have hl : (s.currentChunk env).2.w.log ⊆ L := by
        refine List.Subset.trans ?_ hlog
        generalize s.currentChunk env = g
        obtain ⟨g1, g2⟩ := g
        cases g1 with
        | error e => exact List.Subset.refl _
        | ok x =>
          obtain ⟨id, off⟩ := x
          dsimp only
          split
          · exact List.Subset.refl _
          · split
            · exact List.Subset.refl _
            · split
              · intro x hx; exact S.writeLoop_log _ _ _ hx
              · exact List.Subset.refl _
      have ha := currentChunk_sim hL hi h hl
      generalize s.currentChunk env = g at *
      generalize currentChunk env i t = g' at *
      obtain ⟨g1, g2⟩ := g
      obtain ⟨g1', g2'⟩ := g'
      obtain ⟨hr, hs⟩ := ha
      dsimp only at hr hs
      subst hr
      cases g1' with
      | error e => exact ⟨rfl, hs⟩
      | ok x =>
        obtain ⟨id, off⟩ := x
        dsimp only at hlog hne ⊢
        rw [hs.file]
        cases hg : g2.f.chunks.get? id with
        | none => exact ⟨rfl, hs⟩
        | some c =>
          rw [hg] at hlog hne
          dsimp only at hlog hne ⊢
          have ht := hs.turn hi
          have hcr : c.write env g2.w off data ≠ .error .backend := by
            intro hh
            rw [hh] at hne
            exact hne rfl
          rw [ht.like.write c off data hcr]
          cases hc : c.write env g2.w off data with
          | error e => exact ⟨rfl, ht⟩
          | ok r =>
            obtain ⟨written, rest, c'⟩ := r
            rw [hc] at hlog hne
            dsimp only at hlog hne ⊢
            by_cases hd : rest.length < data.length
            · rw [dif_pos hd] at hlog hne ⊢
              rw [dif_pos hd]
              exact ih rest.length (hn ▸ hd) rest rfl (ht.afterWrite id c' written) hlog hne
            · rw [dif_neg hd, dif_neg hd]
              exact ⟨rfl, ht⟩

theorem write_sim (hL : CollFree env.H L) (hi : AllHarmless env L name i) (data : Bytes) {t : T} {s : S}
    (h : Sim env L name t s) (hlog : (s.write env data).2.w.log ⊆ L) (hne : (s.write env data).1 ≠ .error .backend) :
    Agree env L name (write env i data t) (s.write env data) := by
  simp only [write, S.write, h.file] at hlog hne ⊢
  split
  · exact ⟨rfl, h⟩
  · rename_i hm
    rw [if_neg hm] at hlog hne
    exact writeLoop_sim hL hi _ _ rfl h hlog hne

theorem fill_sim (hL : CollFree env.H L) (hi : AllHarmless env L name i) (n : Nat) :
    ∀ {t : T} {s : S}, Sim env L name t s → (s.fill env n).2.w.log ⊆ L → (s.fill env n).1 ≠ .error .backend →
      Agree env L name (fill env i t n) (s.fill env n) := by
  induction n using Nat.strongRecOn with
  | ind n ih =>
    intro t s h hlog hne
    unfold S.fill at hlog hne ⊢
    unfold fill
    by_cases hz : n = 0
    · rw [dif_pos hz, dif_pos hz]
      exact ⟨rfl, h⟩
    · rw [dif_neg hz] at hlog hne ⊢
      rw [dif_neg hz]
      dsimp only at hlog hne ⊢
      have hl : (s.write env (zeros (min n env.blk))).2.w.log ⊆ L := by
        refine List.Subset.trans ?_ hlog
        generalize s.write env (zeros (min n env.blk)) = g
        obtain ⟨g1, g2⟩ := g
        cases g1 with
        | error e => exact List.Subset.refl _
        | ok x => exact S.fill_log _ _ _
      have hn : (s.write env (zeros (min n env.blk))).1 ≠ .error .backend := by
        intro hh
        generalize s.write env (zeros (min n env.blk)) = g at *
        obtain ⟨g1, g2⟩ := g
        dsimp only at hh
        subst hh
        exact hne rfl
      have ha := write_sim hL hi _ h hl hn
      generalize s.write env (zeros (min n env.blk)) = g at *
      generalize write env i (zeros (min n env.blk)) t = g' at *
      obtain ⟨g1, g2⟩ := g
      obtain ⟨g1', g2'⟩ := g'
      obtain ⟨hr, hs⟩ := ha
      dsimp only at hr hs
      subst hr
      cases g1' with
      | error e => exact ⟨rfl, hs⟩
      | ok _ => exact ih _ (by have := env.blk_pos; omega) hs hlog hne

theorem Sim.at_ {t : T} {s : S} (h : Sim env L name t s) (p : Nat) :
    Sim env L name (t.at_ p) { s with f := { s.f with pos := p } } := by
  refine ⟨?_, h.named, h.like⟩
  show ({ t.s.f with pos := _ } : File) = _
  rw [h.file]

theorem seek_sim (hL : CollFree env.H L) (hi : AllHarmless env L name i) (o : Int) (wh : Whence) {t : T} {s : S}
    (h : Sim env L name t s) (hlog : (s.seek env o wh).2.w.log ⊆ L) (hne : (s.seek env o wh).1 ≠ .error .backend) :
    Agree env L name (seek env i o wh t) (s.seek env o wh) := by
  simp only [seek, S.seek, h.file] at hlog hne ⊢
  by_cases hc : s.f.closed = true
  · rw [if_pos hc, if_pos hc]
    exact ⟨rfl, h⟩
  · rw [if_neg hc] at hlog hne ⊢
    rw [if_neg hc]
    cases hp : s.f.seekTarget o wh with
    | error e => exact ⟨rfl, h⟩
    | ok position =>
      rw [hp] at hlog hne
      dsimp only at hlog hne ⊢
      by_cases hz : position < 0
      · rw [if_pos hz, if_pos hz]
        exact ⟨rfl, h⟩
      · rw [if_neg hz] at hlog hne ⊢
        rw [if_neg hz]
        by_cases hg : position.toNat > s.f.size
        · rw [if_pos hg] at hlog hne ⊢
          rw [if_pos hg]
          have ha := fill_sim hL hi (position.toNat - s.f.size) (h.at_ s.f.size)
          generalize S.fill env { s with f := { s.f with pos := s.f.size } } (position.toNat - s.f.size) = g at *
          generalize fill env i (t.at_ s.f.size) (position.toNat - s.f.size) = g' at *
          obtain ⟨g1, g2⟩ := g
          obtain ⟨g1', g2'⟩ := g'
          have hl : g2.w.log ⊆ L := by
            refine List.Subset.trans ?_ hlog
            cases g1 with
            | error e => exact List.Subset.refl _
            | ok x => dsimp only; split <;> exact List.Subset.refl _
          have hn : g1 ≠ .error .backend := by
            intro hh
            subst hh
            exact hne rfl
          obtain ⟨hr, hs⟩ := ha hl hn
          dsimp only at hr hs
          subst hr
          cases g1' with
          | error e => exact ⟨rfl, hs⟩
          | ok _ =>
            dsimp only
            rw [hs.file]
            split
            · exact ⟨rfl, hs⟩
            · exact ⟨rfl, hs⟩
        · rw [if_neg hg, if_neg hg]
          exact ⟨rfl, h.at_ _⟩

theorem truncate_sim (hL : CollFree env.H L) (hi : AllHarmless env L name i) (sz : Option Nat) {t : T} {s : S}
    (h : Sim env L name t s) (hlog : (s.truncate env sz).2.w.log ⊆ L) :
    Agree env L name (truncate env i sz t) (s.truncate env sz) := by
  simp only [truncate, S.truncate, h.file] at hlog ⊢
  split
  · exact ⟨rfl, h⟩
  · rename_i hm
    rw [if_neg hm] at hlog
    refine flush_sim hL hi ⟨?_, h.named, h.like⟩ hlog
    show ({ t.s.f with size := _, mapping := _ } : File) = _
    rw [h.file]

theorem outOf_agree {α : Type} {g : α → Out} {r' : Except PyErr α × T} {r : Except PyErr α × S} (h : Agree env L name r' r) :
    (outOf g r').2 = (Chunked.outOf g r).2 ∧ Sim env L name (outOf g r').1 (Chunked.outOf g r).1 := by
  obtain ⟨h1, h2⟩ := h
  simp only [outOf, Chunked.outOf, h1]
  exact ⟨rfl, h2⟩

theorem outOf_ne {α : Type} {g : α → Out} {r : Except PyErr α × S} (h : (Chunked.outOf g r).2 ≠ .error .backend) :
    r.1 ≠ .error .backend := by
  intro hh
  simp [Chunked.outOf, hh] at h

theorem step_sim (hL : CollFree env.H L) (hi : AllHarmless env L name i) (op : Op) {t : T} {s : S}
    (h : Sim env L name t s) (hlog : (s.step env op).1.w.log ⊆ L) (hne : (s.step env op).2 ≠ .error .backend) :
    (step env i t op).2 = (s.step env op).2 ∧ Sim env L name (step env i t op).1 (s.step env op).1 := by
  cases op with
  | seek o wh => exact outOf_agree (seek_sim hL hi o wh h hlog (outOf_ne hne))
  | write d => exact outOf_agree (write_sim hL hi d h hlog (outOf_ne hne))
  | read n => exact outOf_agree (read_sim hL hi _ h hlog (outOf_ne hne))
  | truncate => exact outOf_agree (truncate_sim hL hi none h hlog)
  | flush => exact outOf_agree (flush_sim hL hi h hlog)
  | tell =>
    refine outOf_agree ?_
    simp only [tell, S.tell, h.file]
    split <;> exact ⟨rfl, h⟩
  | close => exact outOf_agree (close_sim hL hi h hlog)

theorem exec_sim (hL : CollFree env.H L) (hi : AllHarmless env L name i) (ops : List Op) :
    ∀ {t : T} {s : S}, Sim env L name t s → (Diff.exec env ops s).2.w.log ⊆ L → (Diff.exec env ops s).1 ≠ .error .backend →
      Agree env L name (exec env i ops t) (Diff.exec env ops s) := by
  induction ops with
  | nil => intro t s h _ _; exact ⟨rfl, h⟩
  | cons op ops ih =>
    intro t s h hlog hne
    simp only [exec, Diff.exec] at hlog hne ⊢
    have hl : (s.step env op).1.w.log ⊆ L := by
      refine List.Subset.trans ?_ hlog
      generalize s.step env op = g
      obtain ⟨g1, g2⟩ := g
      cases g2 with
      | error e => exact List.Subset.refl _
      | ok x => exact exec_log _ _ _
    have hn : (s.step env op).2 ≠ .error .backend := by
      intro hh
      rw [hh] at hne
      exact hne rfl
    have ha := step_sim hL hi op h hl hn
    generalize s.step env op = g at *
    generalize step env i t op = g' at *
    obtain ⟨g1, g2⟩ := g
    obtain ⟨g1', g2'⟩ := g'
    obtain ⟨hr, hs⟩ := ha
    dsimp only at hr hs
    subst hr
    cases g2' with
    | error e => exact ⟨rfl, hs⟩
    | ok _ => exact ih hs hlog hne

theorem punchHole_sim (hL : CollFree env.H L) (hi : AllHarmless env L name i) (o n : Nat) {t : T} {s : S}
    (h : Sim env L name t s) (hlog : (Diff.punchHole env o n s).2.w.log ⊆ L)
    (hne : (Diff.punchHole env o n s).1 ≠ .error .backend) :
    Agree env L name (punchHole env i o n t) (Diff.punchHole env o n s) := by
  simp only [punchHole, Diff.punchHole, h.file] at hlog hne ⊢
  split
  · exact ⟨rfl, h⟩
  · rename_i hm
    rw [if_neg hm] at hlog hne
    exact exec_sim hL hi _ h hlog hne

theorem applyRec_sim (hL : CollFree env.H L) (hi : AllHarmless env L name i) (a b : Bytes) (r : Rec) {t : T} {s : S}
    (h : Sim env L name t s) (hlog : (Diff.applyRec env a b s r).2.w.log ⊆ L)
    (hne : (Diff.applyRec env a b s r).1 ≠ .error .backend) :
    Agree env L name (applyRec env i a b t r) (Diff.applyRec env a b s r) := by
  cases r with
  | size n => exact exec_sim hL hi _ h hlog hne
  | fromSnap x => simp only [applyRec, Diff.applyRec]; split <;> exact ⟨rfl, h⟩
  | toSnap x => simp only [applyRec, Diff.applyRec]; split <;> exact ⟨rfl, h⟩
  | data start l chunks => exact exec_sim hL hi _ h hlog hne
  | zero start length =>
    simp only [applyRec, Diff.applyRec] at hlog hne ⊢
    have hl : (Diff.exec env [.seek start .set] s).2.w.log ⊆ L := by
      refine List.Subset.trans ?_ hlog
      generalize Diff.exec env [.seek start .set] s = g
      obtain ⟨g1, g2⟩ := g
      cases g1 with
      | error e => exact List.Subset.refl _
      | ok x =>
        dsimp only
        unfold Diff.punchHole
        split
        · exact List.Subset.refl _
        · exact exec_log _ _ _
    have hn : (Diff.exec env [.seek start .set] s).1 ≠ .error .backend := by
      intro hh
      generalize Diff.exec env [.seek start .set] s = g at *
      obtain ⟨g1, g2⟩ := g
      dsimp only at hh
      subst hh
      exact hne rfl
    have ha := exec_sim hL hi [.seek start .set] h hl hn
    generalize Diff.exec env [.seek start .set] s = g at *
    generalize exec env i [.seek start .set] t = g' at *
    obtain ⟨g1, g2⟩ := g
    obtain ⟨g1', g2'⟩ := g'
    obtain ⟨hr, hs⟩ := ha
    dsimp only at hr hs
    subst hr
    cases g1' with
    | error e => exact ⟨rfl, hs⟩
    | ok _ =>
      dsimp only
      rw [hs.file]
      exact punchHole_sim hL hi _ _ hs hlog hne

theorem applyRecs_sim (hL : CollFree env.H L) (hi : AllHarmless env L name i) (a b : Bytes) (l : List Rec) :
    ∀ {t : T} {s : S}, Sim env L name t s → (Diff.applyRecs env a b l s).2.w.log ⊆ L →
      (Diff.applyRecs env a b l s).1 ≠ .error .backend →
      Agree env L name (applyRecs env i a b l t) (Diff.applyRecs env a b l s) := by
  induction l with
  | nil => intro t s h _ _; exact ⟨rfl, h⟩
  | cons r l ih =>
    intro t s h hlog hne
    simp only [applyRecs, Diff.applyRecs] at hlog hne ⊢
    have hl : (Diff.applyRec env a b s r).2.w.log ⊆ L := by
      refine List.Subset.trans ?_ hlog
      generalize Diff.applyRec env a b s r = g
      obtain ⟨g1, g2⟩ := g
      cases g1 with
      | error e => exact List.Subset.refl _
      | ok x => exact applyRecs_log _ _ _ _ _
    have hn : (Diff.applyRec env a b s r).1 ≠ .error .backend := by
      intro hh
      generalize Diff.applyRec env a b s r = g at *
      obtain ⟨g1, g2⟩ := g
      dsimp only at hh
      subst hh
      exact hne rfl
    have ha := applyRec_sim hL hi a b r h hl hn
    generalize Diff.applyRec env a b s r = g at *
    generalize applyRec env i a b t r = g' at *
    obtain ⟨g1, g2⟩ := g
    obtain ⟨g1', g2'⟩ := g'
    obtain ⟨hr, hs⟩ := ha
    dsimp only at hr hs
    subst hr
    cases g1' with
    | error e => exact ⟨rfl, hs⟩
    | ok _ => exact ih hs hlog hne

theorem integrate_sim (hL : CollFree env.H L) (hi : AllHarmless env L name i) (stream a b : Bytes) {t : T} {s : S}
    (h : Sim env L name t s) (hlog : (Diff.integrate env stream a b s).2.w.log ⊆ L)
    (hne : (Diff.integrate env stream a b s).1 ≠ .error .backend) :
    Agree env L name (integrate env i stream a b t) (Diff.integrate env stream a b s) := by
  simp only [integrate, Diff.integrate] at hlog hne ⊢
  have ha := applyRecs_sim hL hi a b (decode env stream).1 h
  generalize Diff.applyRecs env a b (decode env stream).1 s = g at *
  generalize applyRecs env i a b (decode env stream).1 t = g' at *
  obtain ⟨g1, g2⟩ := g
  obtain ⟨g1', g2'⟩ := g'
  have hl : g2.w.log ⊆ L := by
    refine List.Subset.trans ?_ hlog
    cases g1 with
    | error e => exact List.Subset.refl _
    | ok x => dsimp only; split <;> exact List.Subset.refl _
  have hn : g1 ≠ .error .backend := by
    intro hh
    subst hh
    exact hne rfl
  obtain ⟨hr, hs⟩ := ha hl hn
  dsimp only at hr hs
  subst hr
  cases g1' with
  | error e => exact ⟨rfl, hs⟩
  | ok _ =>
    dsimp only
    cases (decode env stream).2 <;> exact ⟨rfl, hs⟩

theorem transfer_sim (hL : CollFree env.H L) (hi : AllHarmless env L name i) (o : Rbd) (uuid : String) (parent : Option Rev)
    {t : T} {s : S} (h : Sim env L name t s) (hlog : (Backup.transfer env o uuid parent s).2.w.log ⊆ L)
    (hne : (Backup.transfer env o uuid parent s).1 ≠ .error .backend) :
    Agree env L name (transfer env i o uuid parent t) (Backup.transfer env o uuid parent s) := by
  cases parent with
  | none => exact exec_sim hL hi _ h hlog hne
  | some p => exact integrate_sim hL hi _ _ _ h hlog hne

theorem closing_sim (hL : CollFree env.H L) (hi : AllHarmless env L name i) {r' : Except PyErr Unit × T}
    {r : Except PyErr Unit × S} (h : Agree env L name r' r) (hlog : (Backup.closing env r).2.log ⊆ L) :
    (closing env i r').1 = (Backup.closing env r).1 ∧
      Like env L name (closing env i r').2.1 (Backup.closing env r).2 := by
  simp only [closing, Backup.closing] at hlog ⊢
  have ha := close_sim hL hi h.sim
  generalize r.2.close env = g at *
  generalize close env i r'.2 = g' at *
  obtain ⟨g1, g2⟩ := g
  obtain ⟨g1', g2'⟩ := g'
  have hl : g2.w.log ⊆ L := by
    cases g1 <;> exact hlog
  obtain ⟨hr, hs⟩ := ha hl
  dsimp only at hr hs
  subst hr
  cases g1' with
  | error e => exact ⟨rfl, hs.like⟩
  | ok _ => exact ⟨h.res, hs.like⟩

theorem roughLoop_log (bs : Nat) (expired : Nat → Bool) (sample : List Nat) :
    ∀ (k : Nat) (a : PFile) (s : S), s.w.log ⊆ (Files.roughLoop env bs expired sample k a s).2.w.log := by
  induction sample with
  | nil => intro k a s; exact List.Subset.refl _
  | cons b rest ih =>
    intro k a s
    simp only [Files.roughLoop]
    split
    · exact List.Subset.refl _
    · have h1 := S.seek_log env (b * bs : Nat) .set s
      generalize s.seek env (b * bs : Nat) .set = g at *
      obtain ⟨g1, g2⟩ := g
      cases g1 with
      | error e => exact h1
      | ok _ =>
        dsimp only at h1 ⊢
        have h2 := S.read_log env bs g2
        simp only [readS]
        generalize g2.read env bs = q at *
        obtain ⟨q1, q2⟩ := q
        cases q1 with
        | error e => exact List.Subset.trans h1 h2
        | ok _ =>
          dsimp only at h2 ⊢
          split
          · exact List.Subset.trans h1 (List.Subset.trans h2 (ih _ _ _))
          · exact List.Subset.trans h1 h2

theorem roughLoop_sim (hL : CollFree env.H L) (hi : AllHarmless env L name i) (bs : Nat) (expired : Nat → Bool)
    (sample : List Nat) : ∀ (k : Nat) (a : PFile) {t : T} {s : S}, Sim env L name t s →
      (Files.roughLoop env bs expired sample k a s).2.w.log ⊆ L →
      (Files.roughLoop env bs expired sample k a s).1 ≠ .error .backend →
      Agree env L name (roughLoop env i bs expired sample k a t) (Files.roughLoop env bs expired sample k a s) := by
  induction sample with
  | nil => intro k a t s h _ _; exact ⟨rfl, h⟩
  | cons b rest ih =>
    intro k a t s h hlog hne
    simp only [Files.roughLoop, roughLoop] at hlog hne ⊢
    by_cases hx : expired k = true
    · rw [if_pos hx, if_pos hx]
      exact ⟨rfl, h⟩
    · rw [if_neg hx] at hlog hne ⊢
      rw [if_neg hx]
      have ha := seek_sim hL hi (b * bs : Nat) .set h
      generalize s.seek env (b * bs : Nat) .set = g at *
      generalize seek env i (b * bs : Nat) .set t = g' at *
      obtain ⟨g1, g2⟩ := g
      obtain ⟨g1', g2'⟩ := g'
      have hl : g2.w.log ⊆ L := by
        refine List.Subset.trans ?_ hlog
        cases g1 with
        | error e => exact List.Subset.refl _
        | ok x =>
          dsimp only
          have h2 := S.read_log env bs g2
          simp only [readS]
          generalize g2.read env bs = q at *
          obtain ⟨q1, q2⟩ := q
          cases q1 with
          | error e => exact h2
          | ok _ =>
            dsimp only at h2 ⊢
            split
            · exact List.Subset.trans h2 (roughLoop_log _ _ _ _ _ _)
            · exact h2
      have hn : g1 ≠ .error .backend := by
        intro hh
        subst hh
        exact hne rfl
      obtain ⟨hr, hs⟩ := ha hl hn
      dsimp only at hr hs
      subst hr
      cases g1' with
      | error e => exact ⟨rfl, hs⟩
      | ok _ =>
        dsimp only at hlog hne ⊢
        simp only [readS] at hlog hne ⊢
        have hb := read_sim hL hi bs hs
        generalize g2.read env bs = q at *
        generalize read env i bs g2' = q' at *
        obtain ⟨q1, q2⟩ := q
        obtain ⟨q1', q2'⟩ := q'
        have hl2 : q2.w.log ⊆ L := by
          refine List.Subset.trans ?_ hlog
          cases q1 with
          | error e => exact List.Subset.refl _
          | ok x =>
            dsimp only
            split
            · exact roughLoop_log _ _ _ _ _ _
            · exact List.Subset.refl _
        have hn2 : q1 ≠ .error .backend := by
          intro hh
          subst hh
          exact hne rfl
        obtain ⟨hr2, hs2⟩ := hb hl2 hn2
        dsimp only at hr2 hs2
        subst hr2
        cases q1' with
        | error e => exact ⟨rfl, hs2⟩
        | ok cb =>
          dsimp only at hlog hne ⊢
          by_cases hc : ((a.seek (b * bs)).read bs).1 = cb
          · rw [if_pos hc] at hlog hne ⊢
            rw [if_pos hc]
            exact ih _ _ hs2 hlog hne
          · rw [if_neg hc, if_neg hc]
            exact ⟨rfl, hs2⟩

/-- Opening the image: the same `File` object. -/
theorem open_sim {v w : World} (h : Like env L name v w) (mode : Mode) :
    (∀ e, File.open w name mode = .error e → File.open v name mode = .error e) ∧
    ∀ s, File.open w name mode = .ok s → ∃ s', File.open v name mode = .ok s' ∧ s'.w = v ∧ s.w = w ∧
      ∀ n, Sim env L name ⟨s', n⟩ s := by
  simp only [File.open, h.metas]
  cases hm : w.metas.get? name with
  | none =>
    dsimp only
    split
    · exact ⟨fun e he => he, by simp⟩
    · refine ⟨by simp, fun s hs => ?_⟩
      cases hs
      exact ⟨_, rfl, rfl, rfl, fun n => ⟨rfl, rfl, h⟩⟩
  | some x =>
    cases x with
    | none => exact ⟨fun e he => he, by simp⟩
    | some m =>
      refine ⟨by simp, fun s hs => ?_⟩
      cases hs
      exact ⟨_, rfl, rfl, rfl, fun n => ⟨rfl, rfl, h⟩⟩

/-- The comparison with the snapshot when no chunk file is missing. -/
def Compares (env : Env) (o : Rbd) (uuid : String) (snap : Bytes) (w : World) : Prop :=
  ∀ s, File.open w uuid rb = .ok s →
    (Files.roughLoop env env.cs o.expired o.sample 0 ⟨snap, snap.length⟩ s).1 ≠ .error .backend

theorem verifyPhase_sim (hL : CollFree env.H L) (hi : AllHarmless env L name i) (o : Rbd) (snap : Bytes) (n : Nat)
    {v w : World} (h : Like env L name v w) (hlog : w.log ⊆ L) (hne : Compares env o name snap w) :
    (verifyPhase env i o name snap v n).1 = (Backup.verifyPhase env o name snap w).1 ∧
      Like env L name (verifyPhase env i o name snap v n).2 (Backup.verifyPhase env o name snap w).2 := by
  have ht := h.turn hi n
  obtain ⟨he, ho⟩ := open_sim ht rb
  simp only [verifyPhase, Backup.verifyPhase]
  cases hf : File.open w name rb with
  | error e => rw [he e hf]; exact ⟨rfl, ht⟩
  | ok s =>
    obtain ⟨s', h1, h2, h3, h4⟩ := ho s hf
    rw [h1]
    dsimp only
    split
    · rw [h2, h3]; exact ⟨rfl, ht⟩
    · have hc := hne s hf
      have hq := (Quiet.open (mode := rb) rfl hf).1
      have hk := roughLoop_ticked (env := env) env.cs o.expired o.sample 0 ⟨snap, snap.length⟩ hq
      have hl : (Files.roughLoop env env.cs o.expired o.sample 0 ⟨snap, snap.length⟩ s).2.w.log ⊆ L := by
        rw [Ticked.log hk, h3]; exact hlog
      have ha := roughLoop_sim hL hi env.cs o.expired o.sample 0 ⟨snap, snap.length⟩ (h4 (n + 1)) hl hc
      unfold filesAreRoughlyEqual
      generalize Files.roughLoop env env.cs o.expired o.sample 0 ⟨snap, snap.length⟩ s = g at *
      generalize roughLoop env i env.cs o.expired o.sample 0 ⟨snap, snap.length⟩ ⟨s', n + 1⟩ = g' at *
      obtain ⟨g1, g2⟩ := g
      obtain ⟨g1', g2'⟩ := g'
      obtain ⟨hr, hs⟩ := ha
      dsimp only at hr hs
      subst hr
      cases g1' with
      | error e => exact ⟨rfl, hs.like⟩
      | ok x =>
        obtain ⟨b, l⟩ := x
        dsimp only
        split <;> exact ⟨rfl, hs.like⟩

/-- Opening the new image: a copy of the parent's mapping. -/
theorem openWrite_sim {s : Src} {v : World} (h : Like env L name v s.w) (parent : Option Rev)
    (hp : ∀ p, parent = some p → v.metas.get? p.uuid = s.w.metas.get? p.uuid) :
    (∀ e w, openWrite s name parent = (.error e, w) → ∃ v', openWrite { s with w := v } name parent = (.error e, v') ∧
      Like env L name v' w) ∧
    ∀ f w, openWrite s name parent = (.ok f, w) → ∃ f' v', openWrite { s with w := v } name parent = (.ok f', v') ∧
      ∀ n, Sim env L name ⟨f', n⟩ f := by
  have hcopy : (∀ e, copyParent s.w name parent = .error e → copyParent v name parent = .error e) ∧
      ∀ w, copyParent s.w name parent = .ok w → ∃ v', copyParent v name parent = .ok v' ∧ Like env L name v' w := by
    unfold copyParent
    cases parent with
    | none =>
      refine ⟨by simp, fun w hw => ?_⟩
      cases hw
      exact ⟨v, rfl, h⟩
    | some p =>
      have hh : v.metas.has name = s.w.metas.has name := by simp only [Dict.has, h.metas]
      dsimp only
      rw [hh, hp p rfl]
      split
      · refine ⟨by simp, fun w hw => ?_⟩
        cases hw
        exact ⟨v, rfl, h⟩
      · cases s.w.metas.get? p.uuid with
        | none => exact ⟨fun e he => he, by simp⟩
        | some m =>
          refine ⟨by simp, fun w hw => ?_⟩
          cases hw
          exact ⟨_, rfl, h.chunks, ⟨h.good.files, h.good.log⟩, h.alone, h.small, by simp only [Dict.get?_set_self], h.seen, h.force, h.tick⟩
  obtain ⟨hce, hco⟩ := hcopy
  unfold openWrite
  cases hc : copyParent s.w name parent with
  | error e =>
    rw [hce e hc]
    refine ⟨fun e' w hw => ?_, by simp⟩
    cases hw
    exact ⟨_, rfl, h.chunks, ⟨h.good.files, h.good.log⟩, h.alone, h.small, by simp only [Dict.get?_set_self], h.seen, h.force, h.tick⟩
  | ok w =>
    obtain ⟨v', h1, h2⟩ := hco w hc
    rw [h1]
    dsimp only
    obtain ⟨he, ho⟩ := open_sim h2 wb
    cases hf : File.open w name wb with
    | error e =>
      rw [he e hf]
      refine ⟨fun e' w' hw => ?_, by simp⟩
      cases hw
      exact ⟨_, rfl, h2⟩
    | ok f =>
      obtain ⟨f', q1, q2, q3, q4⟩ := ho f hf
      rw [q1]
      dsimp only
      rw [containsDistrusted_false]
      simp only [Bool.false_eq_true, if_false]
      refine ⟨by simp, fun f0 w0 hw => ?_⟩
      cases hw
      exact ⟨_, _, rfl, q4⟩

/-- The turns before the new image is opened leave the parent's mapping file alone. -/
def KeepsParent (i : Others) (parent : Option Rev) (w : World) : Prop :=
  ∀ p, parent = some p → (i 0 w).metas.get? p.uuid = w.metas.get? p.uuid

theorem writePhase_sim (hL : CollFree env.H L) (hi : AllHarmless env L name i) (o : Rbd) {s : Src} (parent : Option Rev)
    (hp : KeepsParent i parent s.w) (hg : Like env L name s.w s.w)
    (hlog : (Backup.writePhase env o name parent s).2.log ⊆ L)
    (hne : ∀ f w, openWrite s name parent = (.ok f, w) → (Backup.transfer env o name parent f).1 ≠ .error .backend) :
    (writePhase env i o name parent s).1 = (Backup.writePhase env o name parent s).1 ∧
      Like env L name (writePhase env i o name parent s).2.1 (Backup.writePhase env o name parent s).2 := by
  have h0 : Like env L name (i 0 s.w) s.w :=
    hg.turn hi 0
  obtain ⟨he, ho⟩ := openWrite_sim h0 parent (fun p hpp => hp p hpp)
  simp only [writePhase, Backup.writePhase] at hlog ⊢
  rcases hw : openWrite s name parent with ⟨f | f, w⟩
  · obtain ⟨v', h1, h2⟩ := he f w hw
    rw [h1]
    exact ⟨rfl, h2⟩
  · obtain ⟨f', v', h1, h2⟩ := ho f w hw
    rw [h1]
    rw [hw] at hlog
    dsimp only at hlog ⊢
    have hl := List.Subset.trans (closing_log env (Backup.transfer env o name parent f)) hlog
    exact closing_sim hL hi (transfer_sim hL hi o name parent (h2 1) hl (hne f w hw)) hlog

/-! ### Alone, no chunk file is missing -/

theorem flat_ne (fl : Flat) (op : Op) : (fl.step op).2 ≠ .error .backend := by
  cases op with
  | seek o wh =>
    simp only [Flat.step]
    split
    · simp
    · split
      · simp
      · split
        · simp
        · split
          · simp
          · split <;> simp
  | write d => simp only [Flat.step]; split <;> simp
  | read n => simp only [Flat.step]; split <;> simp
  | truncate => simp only [Flat.step]; split <;> simp
  | flush => simp only [Flat.step]; split <;> simp
  | tell => simp only [Flat.step]; split <;> simp
  | close => simp only [Flat.step]; split <;> simp

theorem exec_ne (hL : CollFree env.H L) (ops : List Op) :
    ∀ {s : S}, Wr env s → (∀ op ∈ ops, storing op = true) → (Diff.exec env ops s).2.w.log ⊆ L →
      (Diff.exec env ops s).1 ≠ .error .backend := by
  induction ops with
  | nil => intro s h _ _; simp [Diff.exec]
  | cons op ops ih =>
    intro s h hops hlog
    obtain ⟨c, pos, r, hr⟩ := h
    unfold Diff.exec at hlog ⊢
    dsimp only at hlog ⊢
    have hsub : (s.step env op).1.w.log ⊆ L := by
      split at hlog
      · exact hlog
      · exact fun x hx => hlog (exec_log env ops _ hx)
    obtain ⟨e1, e2, e3, e4⟩ := step_ok hL hr op hsub
    obtain ⟨c', pos', hf⟩ := flat_storing c pos r op (hops op (by simp))
    rw [hf] at e1
    have hn := flat_ne ⟨c, pos, r, true, false⟩ op
    rw [← e2] at hn
    split
    · rename_i e heq
      rw [heq] at hn
      intro hh
      cases hh
      exact hn rfl
    · rename_i heq
      rw [heq] at hlog
      exact ih ⟨c', pos', r, e1⟩ (fun o ho => hops o (by simp [ho])) hlog

theorem applyRec_ne (hL : CollFree env.H L) (f t : Bytes) (r : Rec) {s : S}
    (h : Wr env s) (hlog : (Diff.applyRec env f t s r).2.w.log ⊆ L) : (Diff.applyRec env f t s r).1 ≠ .error .backend := by
  cases r with
  | size n => exact exec_ne hL _ h (by simp [storing]) hlog
  | fromSnap b => simp only [Diff.applyRec]; split <;> simp
  | toSnap b => simp only [Diff.applyRec]; split <;> simp
  | zero start length =>
    simp only [Diff.applyRec] at hlog ⊢
    have h1 := exec_log env [.seek start .set] s
    have hk := fun hl => exec_any hL [.seek start .set] h (by simp [storing]) hl
    have hn := fun hl => exec_ne hL [.seek start .set] h (by simp [storing]) hl
    generalize hg : Diff.exec env [.seek start .set] s = g at *
    obtain ⟨g1, s1⟩ := g
    cases g1 with
    | error e => exact hn hlog
    | ok u =>
      dsimp only at hlog hk ⊢
      unfold Diff.punchHole at hlog ⊢
      split
      · simp
      · rename_i h0
        rw [if_neg h0] at hlog
        have hk' := hk (fun x hx => hlog (exec_log env _ _ hx))
        exact exec_ne hL _ hk'.wr (by simp [storing]) hlog
  | data start n chunks =>
    refine exec_ne hL _ h ?_ hlog
    intro op hop
    rcases List.mem_cons.1 hop with rfl | hop
    · rfl
    · obtain ⟨d, _, rfl⟩ := List.mem_map.1 hop; rfl

theorem applyRecs_ne (hL : CollFree env.H L) (f t : Bytes) (l : List Rec) :
    ∀ {s : S}, Wr env s → (Diff.applyRecs env f t l s).2.w.log ⊆ L → (Diff.applyRecs env f t l s).1 ≠ .error .backend := by
  induction l with
  | nil => intro s _ _; simp [Diff.applyRecs]
  | cons r l ih =>
    intro s h hlog
    simp only [Diff.applyRecs] at hlog ⊢
    have hk := fun hl => applyRec_any hL f t r h hl
    have hn := fun hl => applyRec_ne hL f t r h hl
    generalize Diff.applyRec env f t s r = g at *
    obtain ⟨g1, s1⟩ := g
    cases g1 with
    | error e => exact hn hlog
    | ok u =>
      dsimp only at hlog hk ⊢
      exact ih (hk (fun x hx => hlog (applyRecs_log _ _ _ _ _ hx))).wr hlog

theorem unpack_ne (k : Nat) (f : Bytes) : unpack k f ≠ .error .backend := by
  unfold unpack
  split <;> simp

theorem readFbytes_ne (f : Bytes) : readFbytes f ≠ .error .backend := by
  unfold readFbytes
  have := unpack_ne 4 f
  split
  · rename_i heq
    rw [heq] at this
    exact fun hh => this (by cases hh; rfl)
  · split
    · split <;> simp
    · split
      · split <;> simp
      · simp

theorem readRecord_ne (phase : Diff.Phase) (f : Bytes) : readRecord env phase f ≠ .error .backend := by
  have key : ∀ {α : Type} {e : PyErr} (x : Except PyErr α), x ≠ .error .backend → x = .error e → e ≠ .backend := by
    intro α e x hx he hb
    subst hb
    exact hx he
  unfold readRecord
  cases f with
  | nil => simp
  | cons b f =>
    dsimp only
    split
    · split
      · simp
      · split
        · rename_i heq
          have := key _ (readFbytes_ne f) heq
          simpa using this
        · simp
    · split
      · split
        · simp
        · split
          · rename_i heq
            have := key _ (readFbytes_ne f) heq
            simpa using this
          · simp
      · split
        · split
          · simp
          · split
            · rename_i heq
              have := key _ (unpack_ne 8 f) heq
              simpa using this
            · simp
        · split
          · split
            · rename_i heq
              have := key _ (unpack_ne 8 f) heq
              simpa using this
            · split
              · rename_i heq
                have := key _ (unpack_ne 8 _) heq
                simpa using this
              · simp
          · split
            · split
              · rename_i heq
                have := key _ (unpack_ne 8 f) heq
                simpa using this
              · split
                · rename_i heq
                  have := key _ (unpack_ne 8 _) heq
                  simpa using this
                · simp
            · split <;> simp

theorem readRecords_ne (fuel : Nat) : ∀ (phase : Diff.Phase) (f : Bytes), (readRecords env fuel phase f).2 ≠ some .backend := by
  induction fuel with
  | zero => intro phase f; simp [readRecords]
  | succ n ih =>
    intro phase f
    have := readRecord_ne (env := env) phase f
    unfold readRecords
    split
    · rename_i heq
      rw [heq] at this
      intro hh
      cases hh
      exact this rfl
    · simp
    · exact ih _ _

theorem transfer_ne (hL : CollFree env.H L) (o : Rbd) (uuid : String) (parent : Option Rev) {s : S} (h : Wr env s)
    (hlog : (Backup.transfer env o uuid parent s).2.w.log ⊆ L) : (Backup.transfer env o uuid parent s).1 ≠ .error .backend := by
  cases parent with
  | none =>
    refine exec_ne hL _ h ?_ hlog
    intro op hop
    obtain ⟨d, _, rfl⟩ := List.mem_map.1 hop
    rfl
  | some p =>
    have hd : (decode env (o.diffOut p.uuid)).2 ≠ some .backend := by
      unfold decode
      split
      · simp
      · exact readRecords_ne _ _ _
    simp only [Backup.transfer, Diff.integrate] at hlog ⊢
    have hn := applyRecs_ne hL (ascii (snapName p.uuid)) (ascii (snapName uuid)) (decode env (o.diffOut p.uuid)).1 h
    generalize Diff.applyRecs env (ascii (snapName p.uuid)) (ascii (snapName uuid)) (decode env (o.diffOut p.uuid)).1 s = g at *
    obtain ⟨g1, s1⟩ := g
    cases g1 with
    | error e => exact hn hlog
    | ok u =>
      dsimp only
      split
      · rename_i heq
        rw [heq] at hd
        intro hh
        cases hh
        exact hd rfl
      · simp

theorem roughLoop_ne {w : World} (hL : CollFree env.H w.log) (bs : Nat) (expired : Nat → Bool) (sample : List Nat) :
    ∀ {s : S} {c : Bytes} {pos : Nat} (k : Nat) (f : PFile), Rd env w s c pos →
      (Files.roughLoop env bs expired sample k f s).1 ≠ .error .backend := by
  induction sample with
  | nil => intro s c pos k f _; simp [Files.roughLoop]
  | cons x rest ih =>
    intro s c pos k f h
    unfold Files.roughLoop
    split
    · simp
    · by_cases hx : x * bs ≤ c.length
      · obtain ⟨s1, e1, e2⟩ := h.seek hL (x * bs : Nat) .set (x * bs) (by simp [Flat.target]) hx
        rw [e1]
        dsimp only
        obtain ⟨s2, g1, g2⟩ := e2.read hL bs
        rw [g1]
        dsimp only
        split
        · exact ih _ _ g2
        · simp
      · have := h.seek_beyond hL (x * bs) (by omega)
        cases hsk : s.seek env (x * bs : Nat) .set with
        | mk q s1 =>
          rw [hsk] at this
          dsimp only at this ⊢
          subst this
          simp

theorem Harmless.mono {env : Env} {L : List Bytes} {keep keep' : List String} {w w' : World} (h : Harmless env L keep w w')
    (hs : keep' ⊆ keep) : Harmless env L keep' w w' :=
  ⟨h.kept, h.added, fun n hn => h.metas n (hs hn), h.older, h.log, h.seen, h.force, h.tick⟩

theorem Like.refl {w : World} (hw : WOK env w) (hlog : w.log ⊆ L) : Like env L name w w :=
  ⟨fun _ _ h => h, ⟨fun h x hx => (hw.good h x hx).elim fun d ⟨q1, q2, q3, _⟩ => ⟨d, q1, q2, q3⟩, hlog⟩,
    fun h x hx => (hw.good h x hx).elim fun d ⟨q1, q2, q3, _⟩ => ⟨d, q1, q2, hlog q3⟩,
    fun _ _ h => .inl h, rfl, rfl, rfl, rfl⟩

/-- The body of a backup beside others has the same result as alone, and leaves a like directory. -/
theorem backupBody_sim (hL : CollFree env.H L) (af : Bool) (o : Rbd) {s : Sys} {r : Rev} (h : Start env s r)
    (hno : s.ceph.snaps.has (snapName r.uuid) = false) (hf : Faithful o s.ceph.snaps r.uuid s.ceph.image)
    (hi : BesideHarmless env L s.src.repo.history i)
    (hlog : (Backup.backupBody env af o r s.ceph.image (s.snapshot r)).2.log ⊆ L) :
    (backupBody env i af o r s.ceph.image (s.snapshot r)).1 = (Backup.backupBody env af o r s.ceph.image (s.snapshot r)).1 ∧
      Like env L r.uuid (backupBody env i af o r s.ceph.image (s.snapshot r)).2
        (Backup.backupBody env af o r s.ceph.image (s.snapshot r)).2 := by
  have hspec := backupBody_spec hL af o h hno hf hlog
  have hsl : s.src.w.log ⊆ L := List.Subset.trans hspec.2.2.1 hlog
  have hlike : Like env L r.uuid s.src.w s.src.w := Like.refl h.mem.disk.wok hsl
  have hall : AllHarmless env L r.uuid i := fun n w hw => (hi n w hw).mono (by
    intro x hx
    simp only [List.mem_singleton] at hx
    subst hx
    exact List.mem_map_of_mem h.rev)
  unfold backupBody
  unfold Backup.backupBody at hlog ⊢
  have hsrc : (s.snapshot r).src = s.src := rfl
  rw [hsrc] at hlog ⊢
  cases hp : cephGetParent af (s.snapshot r).ceph.snaps o.infoFails s.src.repo r with
  | error e => exact ⟨rfl, hlike⟩
  | ok parent =>
    rw [hp] at hlog
    dsimp only at hlog ⊢
    obtain ⟨c, hc⟩ := h.parent hno hp
    have hkp : KeepsParent i parent s.src.w := by
      intro p hpp
      subst hpp
      have := (cephGetParent_some h.mem.sync.nodup h.rev h.trust hp).1
      exact (hi 0 s.src.w hlike.good).metas p.uuid (List.mem_map_of_mem this)
    have hwl : (Backup.writePhase env o r.uuid parent s.src).2.log ⊆ L := by
      split at hlog
      · rename_i heq; rw [heq]; exact hlog
      · rename_i w heq; rw [heq]; rw [verifyPhase_log] at hlog; exact hlog
    obtain ⟨f, w0, o1, o2, o3, o4, o5⟩ := openWrite_ok h.mem.disk.wok h.fresh (fun p hp => (hc p hp).1)
    have hne : ∀ f w, openWrite s.src r.uuid parent = (.ok f, w) → (Backup.transfer env o r.uuid parent f).1 ≠ .error .backend := by
      intro f' w' hfw
      rw [o1] at hfw
      cases hfw
      refine transfer_ne hL o r.uuid parent ⟨_, _, _, o5⟩ ?_
      have : (Backup.closing env (Backup.transfer env o r.uuid parent f)).2.log ⊆ L := by
        have e : Backup.writePhase env o r.uuid parent s.src = Backup.closing env (Backup.transfer env o r.uuid parent f) := by
          unfold Backup.writePhase
          rw [o1]
        rw [← e]
        exact hwl
      exact List.Subset.trans (closing_log env _) this
    obtain ⟨w1, w2, w3, w4⟩ := writePhase_spec hL o h.mem.disk.wok h.fresh (fun p hp => (hc p hp).1) hwl
    have w5 := w4 s.ceph.snaps s.ceph.image hf (fun p hp => (hc p hp).2)
    obtain ⟨q1, q2⟩ := writePhase_sim hL hall o parent hkp hlike hwl hne
    generalize Backup.writePhase env o r.uuid parent s.src = g at *
    generalize writePhase env i o r.uuid parent s.src = g' at *
    obtain ⟨g1, w⟩ := g
    obtain ⟨g1', w', n⟩ := g'
    dsimp only at q1 q2
    subst q1
    cases g1' with
    | error e => exact ⟨rfl, q2⟩
    | ok u =>
      dsimp only at hlog hwl w1 w5 ⊢
      refine verifyPhase_sim hL hall o s.ceph.image n q2 hwl ?_
      intro f hfo
      obtain ⟨f', hf1, hf2⟩ := Rd.open w1 (w5 rfl)
      rw [hf1] at hfo
      cases hfo
      exact roughLoop_ne (hL.mono hwl) _ _ _ _ _ hf2

end

end Verif.Beside
