import Verif.Proofs.Damage
import Verif.Props.BackupRuns
import Verif.Props.Verify
/-!
# Properties C74 to C76: damaged repositories

Histories with any damage to chunk files and mapping files between the events (`Spec/Damage.lean`).
-/
namespace Verif.Backup
open Verif Verif.Chunked Verif.Spec Verif.Rbd Verif.Repo Verif.Files Verif.Diff

/-- A restore of a complete local revision after a history with damage: what is known about the files. -/
theorem restore_kept {env : Env} {s0 s : Sys} (h0 : Initial s0) (hlog : s0.src.w.log = []) (hs : Damaged env s0 s)
    (hcoll : CollFree env.H s.src.w.log) {u : String} {r : Rev} (hr : onDisk s.src.repo.files u = some r) (hl : r.server = "")
    (hc : r.clean = true) : OkW env s.src.w.log s.src.w ∧ ∃ c, s.ceph.taken.get? r.uuid = some c ∧
      ∀ m, s.src.w.metas.get? r.uuid = some (some m) → OnDisk env (ideal env s.src.w.log s.src.w) r.uuid c := by
  have hg := (Sound.initial (env := env) (L := s.src.w.log) h0 hlog).damaged hcoll hs (fun _ h => h)
  exact ⟨hg.okw, hg.good u r hr hl hc⟩

theorem ideal_log {env : Env} {L : List Bytes} (hL : CollFree env.H L) {w : World} (h : w.log ⊆ L) :
    CollFree env.H (ideal env L w).log := by
  apply hL.mono
  intro x hx
  rcases List.mem_append.1 hx with hx | hx
  · exact h hx
  · exact hx

/-- **C74** After any history of backups, removals, verifications, garbage collections, crashes and damage, restoring a
complete revision to a file either fails or has written exactly the image its snapshot held. -/
theorem C74_restore_file (env : Env) (s0 s : Sys) (h0 : Initial s0) (hlog : s0.src.w.log = []) (hs : Damaged env s0 s)
    (hcoll : CollFree env.H s.src.w.log) (u : String) (r : Rev) (hr : onDisk s.src.repo.files u = some r) (hl : r.server = "")
    (hc : r.clean = true) (target : Option Bytes) :
    (∃ e, (restore env s.connect.src.w r target).1 = .error e) ∨
    ∃ c, s.ceph.taken.get? r.uuid = some c ∧ restore env s.connect.src.w r target = (.ok (), some c) := by
  obtain ⟨hok, c, c1, c2⟩ := restore_kept h0 hlog hs hcoll hr hl hc
  cases hx : restore env s.connect.src.w r target with
  | mk x y =>
    cases x with
    | error e => exact .inl ⟨e, rfl⟩
    | ok a =>
      refine .inr ⟨c, c1, ?_⟩
      have hm : ∃ m, s.src.w.metas.get? r.uuid = some (some m) := by
        unfold restore File.open at hx
        have e : s.connect.src.w.metas = s.src.w.metas := rfl
        rw [e] at hx
        cases hm : s.src.w.metas.get? r.uuid with
        | none => rw [hm] at hx; simp [rb] at hx
        | some m =>
          cases m with
          | none => rw [hm] at hx; cases hx
          | some m => exact ⟨m, rfl⟩
      obtain ⟨m, hm⟩ := hm
      have hd : OnDisk env (ideal env s.src.w.log s.connect.src.w) r.uuid c := onDisk_ideal rfl (c2 m hm)
      have h1 := restore_com hcoll hok.fresh (fun _ h => h) r target y hx
      have h2 := C20_restore_file env _ r c (hok.fresh.wok hcoll) hd (ideal_log hcoll (fun _ h => h)) target
      rw [h2] at h1
      cases h1
      rfl

/-- **C74** The same for standard output. -/
theorem C74_restore_stdout (env : Env) (s0 s : Sys) (h0 : Initial s0) (hlog : s0.src.w.log = []) (hs : Damaged env s0 s)
    (hcoll : CollFree env.H s.src.w.log) (u : String) (r : Rev) (hr : onDisk s.src.repo.files u = some r) (hl : r.server = "")
    (hc : r.clean = true) :
    (∃ e, (restoreOut env s.connect.src.w r).1 = .error e) ∨
    ∃ c, s.ceph.taken.get? r.uuid = some c ∧ restoreOut env s.connect.src.w r = (.ok (), c) := by
  obtain ⟨hok, c, c1, c2⟩ := restore_kept h0 hlog hs hcoll hr hl hc
  cases hx : restoreOut env s.connect.src.w r with
  | mk x y =>
    cases x with
    | error e => exact .inl ⟨e, rfl⟩
    | ok a =>
      refine .inr ⟨c, c1, ?_⟩
      have hm : ∃ m, s.src.w.metas.get? r.uuid = some (some m) := by
        unfold restoreOut File.open at hx
        have e : s.connect.src.w.metas = s.src.w.metas := rfl
        rw [e] at hx
        cases hm : s.src.w.metas.get? r.uuid with
        | none => rw [hm] at hx; simp [rb] at hx
        | some m =>
          cases m with
          | none => rw [hm] at hx; cases hx
          | some m => exact ⟨m, rfl⟩
      obtain ⟨m, hm⟩ := hm
      have hd : OnDisk env (ideal env s.src.w.log s.connect.src.w) r.uuid c := onDisk_ideal rfl (c2 m hm)
      have h1 := restoreOut_com hcoll hok.fresh (fun _ h => h) r y hx
      have h2 := C20_restore_stdout env _ r c (hok.fresh.wok hcoll) hd (ideal_log hcoll (fun _ h => h))
      rw [h2] at h1
      cases h1
      rfl

/-! ### Damage elsewhere does not matter -/

/-- Everything intact in `w` is the same in `v`. -/
structure Sub (env : Env) (w v : World) : Prop where
  metas : v.metas = w.metas
  chunks : ∀ h d, w.chunks.get? h = some (some d) → env.H d = h → v.chunks.get? h = some (some d)

/-- The file in the other world. -/
def swapW (v : World) (s : S) : S := ⟨s.f, { v with tick := s.w.tick }⟩

theorem flushList_clean {env : Env} (l : List (Nat × Chunk)) (h : ∀ id c, (id, c) ∈ l → c.clean = true) (s : S) :
    flushList env l s = (.ok (), s) := by
  induction l with
  | nil => rfl
  | cons e l ih =>
    obtain ⟨id, c⟩ := e
    have hc := h id c (by simp)
    simp only [flushList, Chunk.flush, hc, if_true]
    exact ih (fun i x hx => h i x (by simp [hx]))

theorem flushChunks_swap {env : Env} {v : World} {s : S} (h : Quiet s) (t : Nat) :
    (swapW v s).flushChunks env t = ((s.flushChunks env t).1, swapW v (s.flushChunks env t).2) := by
  unfold S.flushChunks
  have e : (swapW v s).f = s.f := rfl
  rw [e]
  split
  · rfl
  · have hcl : ∀ id c, (id, c) ∈ s.f.sortedChunks.drop t → c.clean = true :=
      fun id c hc => h.clean id c (mem_sortedChunks (List.mem_of_mem_drop hc))
    dsimp only
    rw [flushList_clean _ hcl, flushList_clean _ hcl]
    rfl

theorem prefetch_swap {env : Env} {v : World} {s : S} (h : Quiet s) :
    prefetch env (swapW v s) = ((prefetch env s).1, swapW v (prefetch env s).2) := by
  unfold prefetch
  have e : (swapW v s).f = s.f := rfl
  rw [e]
  split
  · rfl
  · rw [flushChunks_swap h]
    generalize s.flushChunks env flushTarget = g
    obtain ⟨g1, g2⟩ := g
    cases g1 <;> rfl

theorem currentChunk_swap {env : Env} {v : World} {s : S} (h : Quiet s) :
    (swapW v s).currentChunk env = ((s.currentChunk env).1, swapW v (s.currentChunk env).2) := by
  rw [currentChunk_eq, currentChunk_eq, prefetch_swap h]
  have e : (swapW v s).f = s.f := rfl
  rw [e]
  generalize prefetch env s = g
  obtain ⟨g1, g2⟩ := g
  cases g1 <;> rfl

theorem chunkRead_sub {env : Env} {w v : World} (h : Sub env w v) {c : Chunk} {offset : Nat} {size : Int} {x : Bytes × Int × Chunk}
    (hr : c.read env w offset size = .ok x) : c.read env v offset size = .ok x := by
  have key : ∀ c', c.readExisting env w = .ok c' → c.readExisting env v = .ok c' := by
    intro c' hc
    unfold Chunk.readExisting at hc ⊢
    cases hd : c.data with
    | some y => rw [hd] at hc; exact hc
    | none =>
      rw [hd] at hc
      dsimp only at hc ⊢
      cases hh : c.hash with
      | none => rw [hh] at hc; exact hc
      | some y =>
        rw [hh] at hc
        dsimp only at hc ⊢
        cases hx : w.chunks.get? y with
        | none => rw [hx] at hc; cases hc
        | some z =>
          cases z with
          | none => rw [hx] at hc; cases hc
          | some d =>
            rw [hx] at hc
            dsimp only at hc
            split at hc
            · rename_i he
              rw [h.chunks y d hx he]
              dsimp only
              rw [if_pos he]
              exact hc
            · cases hc
  unfold Chunk.read at hr ⊢
  cases hx : c.readExisting env w with
  | error e => rw [hx] at hr; cases hr
  | ok c1 =>
    rw [hx] at hr
    rw [key c1 hx]
    exact hr

theorem Sub.tick {env : Env} {w v w' : World} (h : Sub env w v) (ht : Ticked w w') (n : Nat) : Sub env w' { v with tick := n } := by
  rw [ht]; exact ⟨h.metas, h.chunks⟩

theorem readLoop_sub {env : Env} {v : World} (fuel : Nat) :
    ∀ (s : S) (size : Int) (acc : Bytes), Quiet s → Sub env s.w v →
      ∀ a s', s.readLoop env fuel size acc = (.ok a, s') → (swapW v s).readLoop env fuel size acc = (.ok a, swapW v s') := by
  induction fuel with
  | zero =>
    intro s size acc _ _ a s' hr
    unfold S.readLoop at hr ⊢
    split at hr
    · rename_i h0; rw [if_pos h0]; cases hr; rfl
    · cases hr
  | succ n ih =>
    intro s size acc hq hsub a s' hr
    unfold S.readLoop at hr ⊢
    split at hr
    · rename_i h0; rw [if_pos h0]; cases hr; rfl
    · rename_i h0
      rw [if_neg h0]
      dsimp only at hr ⊢
      rw [currentChunk_swap hq]
      obtain ⟨q1, q2⟩ := hq.currentChunk (env := env)
      generalize s.currentChunk env = g at *
      obtain ⟨g1, g2⟩ := g
      cases g1 with
      | error e => cases hr
      | ok io =>
        obtain ⟨id, off⟩ := io
        dsimp only at hr q1 q2 ⊢
        have e : (swapW v g2).f = g2.f := rfl
        rw [e]
        cases hg : g2.f.chunks.get? id with
        | none => rw [hg] at hr; cases hr
        | some c =>
          rw [hg] at hr
          dsimp only at hr ⊢
          cases hx : c.read env g2.w off size with
          | error e => rw [hx] at hr; cases hr
          | ok r =>
            obtain ⟨data, size', c'⟩ := r
            have h2 : Sub env g2.w (swapW v g2).w := hsub.tick q2 _
            rw [chunkRead_sub h2 hx]
            rw [hx] at hr
            dsimp only at hr ⊢
            split at hr
            · cases hr
            · rename_i hd
              rw [if_neg hd]
              refine ih ⟨{ g2.f with chunks := g2.f.chunks.set id c', pos := g2.f.pos + data.length }, g2.w⟩ size' (acc ++ data)
                ⟨q1.mode, ?_⟩ (by have := hsub.tick q2 v.tick; exact this) a s' hr
              intro i x hx'
              rcases Dict.mem_set hx' with he | he
              · cases he
                have hcl := q1.clean id c (Dict.mem_of_get? hg)
                unfold Chunk.read at hx
                cases hy : c.readExisting env g2.w with
                | error e => rw [hy] at hx; cases hx
                | ok c1 =>
                  rw [hy] at hx
                  dsimp only at hx
                  have hc1 : c1.clean = c.clean := by
                    unfold Chunk.readExisting at hy
                    split at hy
                    · cases hy; rfl
                    · split at hy
                      · cases hy; rfl
                      · split at hy
                        · cases hy
                        · cases hy
                        · split at hy
                          · cases hy; rfl
                          · cases hy
                  cases hdd : c1.data with
                  | none => rw [hdd] at hx; cases hx
                  | some b => rw [hdd] at hx; cases hx; rw [hc1]; exact hcl
              · exact q1.clean i x he

theorem read_sub {env : Env} {v : World} {n : Int} {s : S} (hq : Quiet s) (hsub : Sub env s.w v) {a : Bytes} {s' : S}
    (hr : s.read env n = (.ok a, s')) : (swapW v s).read env n = (.ok a, swapW v s') := by
  unfold S.read at hr ⊢
  have e : (swapW v s).f = s.f := rfl
  rw [e]
  split at hr
  · cases hr
  · rename_i h0
    rw [if_neg h0]
    exact readLoop_sub _ s _ _ hq hsub a s' hr

theorem seek_swap {env : Env} {v : World} {o : Int} {wh : Whence} {s : S} (hq : Quiet s) {a : Nat} {s' : S}
    (hr : s.seek env o wh = (.ok a, s')) : (swapW v s).seek env o wh = (.ok a, swapW v s') := by
  unfold S.seek at hr ⊢
  have e : (swapW v s).f = s.f := rfl
  rw [e]
  split at hr
  · cases hr
  · rename_i h0
    rw [if_neg h0]
    cases ht : s.f.seekTarget o wh with
    | error e => rw [ht] at hr; cases hr
    | ok p =>
      rw [ht] at hr
      dsimp only at hr ⊢
      split at hr
      · cases hr
      · rename_i h1
        rw [if_neg h1]
        split at hr
        · rename_i h2
          exfalso
          have hne : ¬ (p.toNat - s.f.size = 0) := by omega
          unfold S.fill at hr
          rw [dif_neg hne] at hr
          simp only [S.write, hq.mode, true_or, if_true] at hr
          cases hr
        · rename_i h2
          rw [if_neg h2]
          cases hr
          rfl

theorem copyLoop_sub {env : Env} {v : World} (fuel : Nat) : ∀ (s : S) (t : PFile), Quiet s → Sub env s.w v →
    ∀ s' t', copyLoop env fuel s t = (.ok (), s', t') → copyLoop env fuel (swapW v s) t = (.ok (), swapW v s', t') := by
  induction fuel with
  | zero => intro s t _ _ s' t' h; cases h
  | succ n ih =>
    intro s t hq hsub s' t' hr
    unfold copyLoop readS at hr ⊢
    obtain ⟨q1, q2⟩ := hq.read (env := env) (env.blk : Int)
    have hrd := fun a s' => read_sub (n := (env.blk : Int)) hq hsub (a := a) (s' := s')
    generalize s.read env (env.blk : Int) = g at *
    obtain ⟨g1, g2⟩ := g
    cases g1 with
    | error e => cases hr
    | ok chunk =>
      rw [hrd chunk g2 rfl]
      dsimp only at hr q1 q2 ⊢
      split at hr
      · rename_i hc; rw [if_pos hc]; cases hr; rfl
      · rename_i hc; rw [if_neg hc]; exact ih g2 _ q1 (by have := hsub.tick q2 v.tick; exact this) s' t' hr

/-- A restore that succeeds still does so when more of the store is intact. -/
theorem restore_sub {env : Env} {w v : World} (h : Sub env w v) (ht : v.tick = w.tick) (r : Rev) (target t : Option Bytes)
    (hr : restore env w r target = (.ok (), t)) : restore env v r target = (.ok (), t) := by
  unfold restore at hr ⊢
  have hopen : ∀ s, File.open w r.uuid rb = .ok s → File.open v r.uuid rb = .ok (swapW v s) := by
    intro s hs
    unfold File.open at hs ⊢
    rw [h.metas]
    cases hm : w.metas.get? r.uuid with
    | none => rw [hm] at hs; simp [rb] at hs
    | some m =>
      cases m with
      | none => rw [hm] at hs; cases hs
      | some m => rw [hm] at hs; cases hs; simp only [swapW, ← ht]
  cases hf : File.open w r.uuid rb with
  | error e => rw [hf] at hr; cases hr
  | ok s =>
    rw [hf] at hr
    rw [hopen s hf]
    obtain ⟨hq, hw⟩ := Quiet.open (mode := rb) rfl hf
    dsimp only at hr ⊢
    have hv : Sub env s.w v := by rw [hw]; exact h
    unfold restoreFile copy at hr ⊢
    obtain ⟨q1, t1⟩ := hq.seek (env := env) 0 .end_
    have hk1 := fun a s' => seek_swap (env := env) (o := 0) (wh := .end_) (v := v) hq (a := a) (s' := s')
    generalize s.seek env 0 .end_ = g at *
    obtain ⟨g1, g2⟩ := g
    cases g1 with
    | error e => cases hr
    | ok p =>
      rw [hk1 p g2 rfl]
      dsimp only at hr q1 t1 ⊢
      obtain ⟨q2, t2⟩ := q1.seek (env := env) 0 .set
      have hk2 := fun a s' => seek_swap (env := env) (o := 0) (wh := .set) (v := v) q1 (a := a) (s' := s')
      generalize g2.seek env 0 .set = k at *
      obtain ⟨k1, k2⟩ := k
      cases k1 with
      | error e => cases hr
      | ok p2 =>
        rw [hk2 p2 k2 rfl]
        dsimp only at hr q2 t2 ⊢
        have hv2 : Sub env k2.w v := by
          have := (hv.tick t1 v.tick).tick t2 v.tick
          exact this
        have hcp := fun fuel t s' t' => copyLoop_sub (env := env) (v := v) fuel k2 t q2 hv2 s' t'
        have e : (swapW v k2).f.size = k2.f.size := rfl
        rw [e]
        cases hx : copyLoop env (k2.f.size + 1) k2 { content := target.getD [], pos := 0 } with
        | mk x y =>
          obtain ⟨y1, y2⟩ := y
          rw [hx] at hr
          cases x with
          | error e => cases hr
          | ok a => rw [hcp _ _ _ _ hx]; exact hr

theorem stdoutLoop_sub {env : Env} {v : World} (fuel : Nat) : ∀ (s : S) (t : Bytes), Quiet s → Sub env s.w v →
    ∀ s' t', stdoutLoop env fuel s t = (.ok (), s', t') → stdoutLoop env fuel (swapW v s) t = (.ok (), swapW v s', t') := by
  induction fuel with
  | zero => intro s t _ _ s' t' h; cases h
  | succ n ih =>
    intro s t hq hsub s' t' hr
    unfold stdoutLoop readS at hr ⊢
    obtain ⟨q1, q2⟩ := hq.read (env := env) (env.blk : Int)
    have hrd := fun a s' => read_sub (n := (env.blk : Int)) hq hsub (a := a) (s' := s')
    generalize s.read env (env.blk : Int) = g at *
    obtain ⟨g1, g2⟩ := g
    cases g1 with
    | error e => cases hr
    | ok chunk =>
      rw [hrd chunk g2 rfl]
      dsimp only at hr q1 q2 ⊢
      split at hr
      · rename_i hc; rw [if_pos hc]; cases hr; rfl
      · rename_i hc; rw [if_neg hc]; exact ih g2 _ q1 (by have := hsub.tick q2 v.tick; exact this) s' t' hr

theorem restoreOut_sub {env : Env} {w v : World} (h : Sub env w v) (ht : v.tick = w.tick) (r : Rev) (t : Bytes)
    (hr : restoreOut env w r = (.ok (), t)) : restoreOut env v r = (.ok (), t) := by
  unfold restoreOut at hr ⊢
  have hopen : ∀ s, File.open w r.uuid rb = .ok s → File.open v r.uuid rb = .ok (swapW v s) := by
    intro s hs
    unfold File.open at hs ⊢
    rw [h.metas]
    cases hm : w.metas.get? r.uuid with
    | none => rw [hm] at hs; simp [rb] at hs
    | some m =>
      cases m with
      | none => rw [hm] at hs; cases hs
      | some m => rw [hm] at hs; cases hs; simp only [swapW, ← ht]
  cases hf : File.open w r.uuid rb with
  | error e => rw [hf] at hr; cases hr
  | ok s =>
    rw [hf] at hr
    rw [hopen s hf]
    obtain ⟨hq, hw⟩ := Quiet.open (mode := rb) rfl hf
    dsimp only at hr ⊢
    have hv : Sub env s.w v := by rw [hw]; exact h
    unfold restoreStdout at hr ⊢
    have hcp := fun fuel t s' t' => stdoutLoop_sub (env := env) (v := v) fuel s t hq hv s' t'
    have e : (swapW v s).f.size = s.f.size := rfl
    rw [e]
    cases hx : stdoutLoop env (s.f.size + 1) s [] with
    | mk x y =>
      obtain ⟨y1, y2⟩ := y
      rw [hx] at hr
      cases x with
      | error e => cases hr
      | ok a => rw [hcp _ _ _ _ hx]; exact hr

/-- The intact part of a damaged world. -/
def intact (env : Env) (L : List Bytes) (w : World) : World :=
  { ideal env L w with chunks := (table env L).filter (fun e => decide (w.chunks.get? e.1 = (table env L).get? e.1)) }

theorem intact_get (env : Env) (L : List Bytes) (w : World) (h : Hash) :
    (intact env L w).chunks.get? h = if w.chunks.get? h = (table env L).get? h then (table env L).get? h else none := by
  have := Dict.get?_filter (table env L) (fun h => decide (w.chunks.get? h = (table env L).get? h)) h
  simp only [intact]
  rw [this]
  simp

theorem intact_sub (env : Env) (L : List Bytes) (w : World) : Sub env (intact env L w) w := by
  refine ⟨rfl, ?_⟩
  intro h d hd _
  rw [intact_get] at hd
  split at hd
  · rename_i he; rw [he]; exact hd
  · cases hd

theorem intact_wok {env : Env} {L : List Bytes} {w : World} (hs : w.seen = []) : WOK env (intact env L w) := by
  refine ⟨?_, ?_⟩
  · intro h x hx
    rw [intact_get] at hx
    split at hx
    · obtain ⟨d, h1, h2, h3, h4⟩ := table_some hx
      exact ⟨d, h1, h2, by simp [intact, ideal, h3], h4⟩
    · cases hx
  · intro h hh
    have : (intact env L w).seen = [] := hs
    rw [this] at hh; cases hh

theorem intact_readable {env : Env} {L : List Bytes} (hL : CollFree env.H L) {w : World} (hok : OkW env L w) {h : Hash}
    (hr : Readable env w h) : (intact env L w).chunks.get? h = (ideal env L w).chunks.get? h ∧ Readable env (ideal env L w) h := by
  obtain ⟨d, d1, d2⟩ := hr
  obtain ⟨l1, l2⟩ := hok.chunks h d d1 d2
  have ht := table_get hL l1 l2
  rw [d2] at ht
  refine ⟨?_, d, ht, d2⟩
  rw [intact_get, d1, ht, if_pos rfl]
  exact ht.symm

theorem intact_onDisk {env : Env} {L : List Bytes} (hL : CollFree env.H L) {w : World} (hok : OkW env L w) {n : String} {c : Bytes}
    (hd : OnDisk env (ideal env L w) n c) (hr : ∀ h, Refers w n h → Readable env w h) : OnDisk env (intact env L w) n c := by
  obtain ⟨m, m1, m2, m3, m4⟩ := hd
  have hr' : ∀ h ∈ m.mapping.values, (intact env L w).chunks.get? h = (ideal env L w).chunks.get? h := by
    intro h hh
    exact (intact_readable hL hok (hr h ⟨m, m1, hh⟩)).1
  refine ⟨m, m1, m2, ?_, ?_⟩
  · intro h hh
    rw [hr' h hh]
    exact m3 h hh
  · intro p hp
    obtain ⟨h, d, h1, h2, h3⟩ := m4 p hp
    exact ⟨h, d, h1, by rw [hr' _ (mem_values_of_get? h1)]; exact h2, h3⟩

/-- **C75** Damage of other data does not matter: as long as the mapping file of a complete revision is readable and the chunks
it refers to are intact, the revision restores to exactly the image its snapshot held. -/
theorem C75_intact_restores (env : Env) (s0 s : Sys) (h0 : Initial s0) (hlog : s0.src.w.log = []) (hs : Damaged env s0 s)
    (hcoll : CollFree env.H s.src.w.log) (u : String) (r : Rev) (hr : onDisk s.src.repo.files u = some r) (hl : r.server = "")
    (hc : r.clean = true) (m : Meta) (hm : s.src.w.metas.get? r.uuid = some (some m))
    (hi : ∀ h ∈ m.mapping.values, Readable env s.src.w h) :
    ∃ c, s.ceph.taken.get? r.uuid = some c ∧ (∀ target, restore env s.connect.src.w r target = (.ok (), some c)) ∧
      restoreOut env s.connect.src.w r = (.ok (), c) := by
  obtain ⟨hok, c, c1, c2⟩ := restore_kept h0 hlog hs hcoll hr hl hc
  have hd : OnDisk env (ideal env s.src.w.log s.connect.src.w) r.uuid c := onDisk_ideal rfl (c2 m hm)
  have hi' : OnDisk env (intact env s.src.w.log s.connect.src.w) r.uuid c := by
    apply intact_onDisk hcoll hok.fresh hd
    rintro h ⟨m', m1, m2⟩
    have e : s.src.w.metas.get? r.uuid = some (some m') := m1
    rw [hm] at e
    cases e
    exact hi h m2
  have hcf := ideal_log hcoll (w := s.connect.src.w) (fun _ h => h)
  refine ⟨c, c1, fun target => ?_, ?_⟩
  · exact restore_sub (intact_sub env _ _) rfl r target _ (C20_restore_file env _ r c (intact_wok rfl) hi' hcf target)
  · exact restoreOut_sub (intact_sub env _ _) rfl r _ (C20_restore_stdout env _ r c (intact_wok rfl) hi' hcf)

/-- **C76** A verification that examined everything is right, whatever damage there is: if no revision counted as verified and the
revision is marked verified afterwards, restoring it gives the image its snapshot held. -/
theorem C76_verified_restores (env : Env) (s0 s : Sys) (h0 : Initial s0) (hlog : s0.src.w.log = []) (hs : Damaged env s0 s)
    (hcoll : CollFree env.H s.src.w.log) (order : List Hash → List Hash) (ho : ∀ l, (order l).Perm l)
    (r : Rev) (hr : r ∈ s.connect.src.repo.history) (hl : r.server = "") (hc : r.clean = true)
    (hnone : ∀ v, ¬ IsVerified s.connect.src.repo v)
    (hok : (Src.verify env order s.connect.src r).1 = .ok ()) (v : Rev)
    (hv : onDisk (Src.verify env order s.connect.src r).2.repo.files r.uuid = some v) :
    v = { r with trust := .verified } ∧
    ∃ c, s.ceph.taken.get? r.uuid = some c ∧
      (∀ target, restore env (Src.verify env order s.connect.src r).2.w.fresh r target = (.ok (), some c)) ∧
      restoreOut env (Src.verify env order s.connect.src r).2.w.fresh r = (.ok (), c) := by
  have h19 := C19_verified_or_removed_partial env order ho s.connect.src r hl hok
  have hall : ∀ h, Refers s.connect.src.w r.uuid h → Readable env s.connect.src.w h := by
    by_contra hx
    have := h19.2 (fun ha => hx (fun h hh => (ha h hh).resolve_right (fun ⟨v, hv, _⟩ => hnone v hv)))
    rw [this] at hv; cases hv
  have hv1 := h19.1 (fun h hh => .inl (hall h hh))
  rw [hv1] at hv
  cases hv
  refine ⟨rfl, ?_⟩
  have hstep : Damaged env s0 { s.connect with src := (Src.verify env order s.connect.src r).2 } := .step hs (.verify s order r hr)
  have hmetas : ∃ m, s.src.w.metas.get? r.uuid = some (some m) := by
    unfold Src.verify Src.verifyMark at hok
    cases hcand : verifyCandidates order s.connect.src r with
    | error e => rw [hcand] at hok; cases hok
    | ok l => exact (verifyCandidates_ok ho hcand).2
  obtain ⟨m, hm⟩ := hmetas
  have hsh := verify_shrunk env order s.connect.src r
  have hkeep : ∀ h, Refers s.connect.src.w r.uuid h →
      (Src.verify env order s.connect.src r).2.w.chunks.get? h = s.connect.src.w.chunks.get? h := by
    intro h hh
    obtain ⟨m', m1, m2⟩ := hh
    unfold Src.verify Src.verifyMark at hok ⊢
    cases hcand : verifyCandidates order s.connect.src r with
    | error e => rfl
    | ok l =>
      obtain ⟨k1, _⟩ := verifyCandidates_ok ho hcand
      dsimp only
      cases hb : firstBad env s.connect.src.w l with
      | some x =>
        obtain ⟨b1, b2⟩ := firstBad_mem hb
        exact absurd (hall x ((k1 x).1 b1).1) b2
      | none =>
        dsimp only
        rw [if_neg (by simp [hl])]
        dsimp only
        unfold Src.gc
        cases hu : usedChunks s.connect.src.w (s.connect.src.repo.store { r with trust := .verified }).localHistory [] with
        | error e => dsimp only
        | ok used =>
          dsimp only
          have h2 : h ∈ used := by
            rw [(usedChunks_ok hu).2]
            refine .inr ⟨{ r with trust := .verified }, mem_localHistory.2 ⟨?_, hl⟩, m', m1, m2⟩
            show _ ∈ (Repo.assign s.connect.src.repo { r with trust := .verified }).history
            simp only [Repo.assign, List.mem_map]
            exact ⟨r, hr, by simp⟩
          show (s.connect.src.w.purge used).chunks.get? h = _
          rw [purge_chunks, if_pos h2]
  have hc75 := C75_intact_restores env s0 _ h0 hlog hstep (by rw [show _ = _ from hsh.log]; exact hcoll) r.uuid
    { r with trust := .verified } hv1 hl hc m (by rw [show _ = _ from hsh.metas]; exact hm) ?_
  · exact hc75
  · intro h hh
    have href : Refers s.connect.src.w r.uuid h := ⟨m, hm, hh⟩
    obtain ⟨d, d1, d2⟩ := hall h href
    exact ⟨d, by rw [← d1]; exact hkeep h href, d2⟩

/-! ### The hypotheses can be met -/

theorem Damaged.ofSteps {env : Env} {a b : Sys} (h : Steps env a b) : Damaged env a b := by
  induction h with
  | nil => exact .nil _
  | cons _ h' ih => exact .step ih h'

/-- The repository of `exSecond`; the chunk that only "a" uses has got another content. -/
def exBitrot : Sys :=
  { exSecond with src := { exSecond.src with w := { exSecond.src.w with
      chunks := exSecond.src.w.chunks.set (Test.hash [1, 1, 1, 1]) (some [1, 1, 5, 1]) } } }

theorem exBitrot_damaged : Damaged Test.env exNew exBitrot := by
  refine .damage (.ofSteps exSecond_steps) _ (.chunkChanged (Test.hash [1, 1, 1, 1]) [1, 1, 5, 1] ?_)
  intro h
  have := Test.hash_inj _ _ h
  cases this

/-- The hypotheses of C74 hold here; restoring "a" fails. -/
example : Initial exNew ∧ exNew.src.w.log = [] ∧ Damaged Test.env exNew exBitrot ∧ CollFree Test.env.H exBitrot.src.w.log ∧
    onDisk exBitrot.src.repo.files "a" = some (finished (idealRbd [] []) (newRev "a" 10 {"daily"})) ∧
    (restore Test.env exBitrot.connect.src.w (finished (idealRbd [] []) (newRev "a" 10 {"daily"})) none).1 = .error .backend :=
  ⟨exNew_initial, rfl, exBitrot_damaged, Test.collFree _, by decide +kernel, by decide +kernel⟩

/-- The hypotheses of C75 hold for "b", which restores to its image. -/
theorem exBitrot_b : onDisk exBitrot.src.repo.files "b" = some (finished (idealRbd [] []) (newRev "b" 20 {"daily"})) ∧
    exBitrot.src.w.metas.get? "b" = some (some ⟨[(0, Test.hash [0, 0, 0, 0]), (1, Test.hash [2, 2, 2, 2])], 8⟩) ∧
    (∀ h ∈ [Test.hash [0, 0, 0, 0], Test.hash [2, 2, 2, 2]], Readable Test.env exBitrot.src.w h) ∧
    restore Test.env exBitrot.connect.src.w (finished (idealRbd [] []) (newRev "b" 20 {"daily"})) none =
      (.ok (), some [0, 0, 0, 0, 2, 2, 2, 2]) := by
  refine ⟨by decide +kernel, by decide +kernel, ?_, by decide +kernel⟩
  intro h hh
  rcases List.mem_cons.1 hh with rfl | hh
  · exact ⟨[0, 0, 0, 0], by decide +kernel, by decide +kernel⟩
  · rcases List.mem_singleton.1 hh with rfl
    exact ⟨[2, 2, 2, 2], by decide +kernel, by decide +kernel⟩

/-- The hypotheses of C76 hold here: "b" is verified, and "a" would be removed. -/
theorem exBitrot_verify : finished (idealRbd [] []) (newRev "b" 20 {"daily"}) ∈ exBitrot.connect.src.repo.history ∧
    (∀ v, ¬ IsVerified exBitrot.connect.src.repo v) ∧
    (Src.verify Test.env id exBitrot.connect.src (finished (idealRbd [] []) (newRev "b" 20 {"daily"}))).1 = .ok () ∧
    (onDisk (Src.verify Test.env id exBitrot.connect.src (finished (idealRbd [] []) (newRev "b" 20 {"daily"}))).2.repo.files "b").isSome ∧
    (onDisk (Src.verify Test.env id exBitrot.connect.src (finished (idealRbd [] []) (newRev "a" 10 {"daily"}))).2.repo.files "a") = none := by
  refine ⟨by decide +kernel, ?_, by decide +kernel, by decide +kernel, by decide +kernel⟩
  intro v hv
  have h : ∀ v ∈ exBitrot.connect.src.repo.history, v.trust ≠ .verified := by decide +kernel
  exact h v hv.mem hv.trust

/-! ### The theorems of this file applied to the damaged repository above -/

/-- C74_restore_file, C74_restore_stdout: the damaged revision. -/
example := C74_restore_file Test.env exNew exBitrot exNew_initial rfl exBitrot_damaged (Test.collFree _) "a"
  (finished (idealRbd [] []) (newRev "a" 10 {"daily"})) (by decide +kernel) (by decide +kernel) (by decide +kernel) (some [9])
example := C74_restore_stdout Test.env exNew exBitrot exNew_initial rfl exBitrot_damaged (Test.collFree _) "a"
  (finished (idealRbd [] []) (newRev "a" 10 {"daily"})) (by decide +kernel) (by decide +kernel) (by decide +kernel)

/-- C75_intact_restores: the other one. -/
example := C75_intact_restores Test.env exNew exBitrot exNew_initial rfl exBitrot_damaged (Test.collFree _) "b"
  (finished (idealRbd [] []) (newRev "b" 20 {"daily"})) (by decide +kernel) (by decide +kernel) (by decide +kernel) _ exBitrot_b.2.1
  exBitrot_b.2.2.1

/-- C76_verified_restores -/
example (v : Rev) (hv : onDisk (Src.verify Test.env id exBitrot.connect.src
    (finished (idealRbd [] []) (newRev "b" 20 {"daily"}))).2.repo.files "b" = some v) :=
  C76_verified_restores Test.env exNew exBitrot exNew_initial rfl exBitrot_damaged (Test.collFree _) id (fun _ => List.Perm.refl _)
    (finished (idealRbd [] []) (newRev "b" 20 {"daily"})) exBitrot_verify.1 (by decide +kernel) (by decide +kernel) exBitrot_verify.2.1
    exBitrot_verify.2.2.1 v hv

end Verif.Backup
