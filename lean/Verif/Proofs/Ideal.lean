import Verif.Proofs.BackupRun
/-!
# Damaged chunk stores: what succeeds there succeeds in the undamaged store with the same result

For a fixed list `L` of contents, `ideal` is the world in which the content of every hash of `L` is present.
-/
namespace Verif.Backup
open Verif Verif.Chunked Verif.Spec Verif.Rbd Verif.Repo Verif.Files Verif.Diff

/-- The chunk store with all contents of `L`. -/
def table (env : Env) (L : List Bytes) : Dict Hash (Option Bytes) :=
  (L.filter (fun d => decide (d.length ≤ env.cs))).foldr (fun d t => Dict.set t (env.H d) (some d)) []

theorem table_some {env : Env} {L : List Bytes} {h : Hash} {x : Option Bytes} (hx : (table env L).get? h = some x) :
    ∃ d, x = some d ∧ env.H d = h ∧ d ∈ L ∧ d.length ≤ env.cs := by
  have key : ∀ l : List Bytes, Dict.get? (l.foldr (fun d t => Dict.set t (env.H d) (some d)) ([] : Dict Hash (Option Bytes))) h = some x →
      ∃ d ∈ l, x = some d ∧ env.H d = h := by
    intro l
    induction l with
    | nil => intro h; simp at h
    | cons a l ih =>
      intro hg
      simp only [List.foldr_cons] at hg
      rw [Dict.get?_set] at hg
      split at hg
      · rename_i he
        cases hg
        exact ⟨a, by simp, rfl, he.symm⟩
      · obtain ⟨d, d1, d2⟩ := ih hg
        exact ⟨d, by simp [d1], d2⟩
  obtain ⟨d, d1, d2, d3⟩ := key _ hx
  simp only [List.mem_filter, decide_eq_true_eq] at d1
  exact ⟨d, d2, d3, d1.1, d1.2⟩

theorem table_get {env : Env} {L : List Bytes} (hL : CollFree env.H L) {d : Bytes} (hd : d ∈ L) (hl : d.length ≤ env.cs) :
    (table env L).get? (env.H d) = some (some d) := by
  have key : ∀ l : List Bytes, d ∈ l →
      ∃ x, Dict.get? (l.foldr (fun d t => Dict.set t (env.H d) (some d)) ([] : Dict Hash (Option Bytes))) (env.H d) = some x := by
    intro l
    induction l with
    | nil => intro h; simp at h
    | cons a l ih =>
      intro hg
      simp only [List.foldr_cons]
      rw [Dict.get?_set]
      split
      · exact ⟨_, rfl⟩
      · rename_i hne
        rcases List.mem_cons.1 hg with rfl | hg
        · exact absurd rfl hne
        · exact ih hg
  obtain ⟨x, hx⟩ := key (L.filter (fun d => decide (d.length ≤ env.cs))) (by simp [hd, hl])
  obtain ⟨d', h1, h2, h3, _⟩ := table_some (env := env) (L := L) hx
  have := hL d' h3 d hd h2
  subst this
  rw [← h1]; exact hx

theorem Dict.set_same {K V : Type} [DecidableEq K] {d : Dict K V} {k : K} {v : V} (h : d.get? k = some v) : d.set k v = d := by
  induction d with
  | nil => simp at h
  | cons e t ih =>
    obtain ⟨a, b⟩ := e
    simp only [Dict.get?] at h
    simp only [Dict.set]
    split at h
    · rename_i he; cases h; rw [if_pos he, he]
    · rename_i he; rw [if_neg he, ih h]

/-- The undamaged world. -/
def ideal (env : Env) (L : List Bytes) (w : World) : World := { w with chunks := table env L, log := w.log ++ L }

/-- What is known about a damaged world: readable chunk files with the right hash, and everything seen, belong to `L`. -/
structure OkW (env : Env) (L : List Bytes) (w : World) : Prop where
  chunks : ∀ h d, w.chunks.get? h = some (some d) → env.H d = h → d ∈ L ∧ d.length ≤ env.cs
  seen : ∀ h ∈ w.seen, ∃ d ∈ L, d.length ≤ env.cs ∧ env.H d = h
  small : ∀ d ∈ w.log, d.length ≤ env.cs

theorem OkW.wok {env : Env} {L : List Bytes} (hL : CollFree env.H L) {w : World} (h : OkW env L w) : WOK env (ideal env L w) := by
  refine ⟨?_, ?_⟩
  · intro x y hy
    obtain ⟨d, h1, h2, h3, h4⟩ := table_some hy
    exact ⟨d, h1, h2, by simp [ideal, h3], h4⟩
  · intro x hx
    obtain ⟨d, h1, h2, h3⟩ := h.seen x hx
    exact ⟨d, by rw [← h3]; exact table_get hL h1 h2⟩

theorem OkW.readExisting {env : Env} {L : List Bytes} (hL : CollFree env.H L) {w : World} (h : OkW env L w) {c c' : Chunk}
    (hc : ∀ d, c.data = some d → d.length ≤ env.cs) (hr : c.readExisting env w = .ok c') :
    c.readExisting env (ideal env L w) = .ok c' ∧ ∀ d, c'.data = some d → d.length ≤ env.cs := by
  unfold Chunk.readExisting at hr ⊢
  cases hd : c.data with
  | some x =>
    rw [hd] at hr
    cases hr
    exact ⟨rfl, hc⟩
  | none =>
    rw [hd] at hr
    dsimp only at hr ⊢
    cases hh : c.hash with
    | none =>
      rw [hh] at hr
      cases hr
      refine ⟨rfl, ?_⟩
      intro d hd
      cases hd; simp
    | some x =>
      rw [hh] at hr
      dsimp only at hr ⊢
      cases hx : w.chunks.get? x with
      | none => rw [hx] at hr; cases hr
      | some y =>
        cases y with
        | none => rw [hx] at hr; cases hr
        | some d =>
          rw [hx] at hr
          dsimp only at hr
          split at hr
          · rename_i he
            cases hr
            obtain ⟨h1, h2⟩ := h.chunks x d hx he
            have hg : (ideal env L w).chunks.get? x = some (some d) := by rw [← he]; exact table_get hL h1 h2
            rw [hg]
            dsimp only
            rw [if_pos he]
            refine ⟨rfl, ?_⟩
            intro d' hd'
            cases hd'; exact h2
          · cases hr

theorem OkW.flush {env : Env} {L : List Bytes} (hL : CollFree env.H L) {w w' : World} (h : OkW env L w) {c c' : Chunk}
    {r : Option Hash} (hc : ∀ d, c.data = some d → d.length ≤ env.cs) (hr : c.flush env w = .ok (r, c', w')) (hlog : w'.log ⊆ L) :
    OkW env L w' ∧ w'.metas = w.metas ∧ c.flush env (ideal env L w) = .ok (r, c', ideal env L w') := by
  unfold Chunk.flush at hr ⊢
  split at hr
  · rename_i hcl
    rw [if_pos hcl]
    cases hr
    exact ⟨h, rfl, rfl⟩
  · rename_i hcl
    rw [if_neg hcl]
    cases hd : c.data with
    | none => rw [hd] at hr; cases hr
    | some d =>
      rw [hd] at hr
      dsimp only at hr ⊢
      have hlen := hc d hd
      have hhas : ∀ hdL : d ∈ L, (table env L).has (env.H d) = true := by
        intro hdL; rw [Dict.has, table_get hL hdL hlen]; rfl
      by_cases hs : env.H d ∈ w.seen
      · have hs' : env.H d ∈ (ideal env L w).seen := hs
        simp only [if_pos hs, if_pos hs', Except.ok.injEq, Prod.mk.injEq] at hr ⊢
        obtain ⟨rfl, rfl, rfl⟩ := hr
        refine ⟨⟨h.chunks, h.seen, ?_⟩, rfl, rfl, rfl, rfl⟩
        intro x hx
        rcases List.mem_cons.1 hx with rfl | hx
        · exact hlen
        · exact h.small x hx
      · have hs' : env.H d ∉ (ideal env L w).seen := hs
        simp only [if_neg hs, if_neg hs', Except.ok.injEq, Prod.mk.injEq] at hr ⊢
        obtain ⟨rfl, rfl, rfl⟩ := hr
        have hdL : d ∈ L := by
          apply hlog
          by_cases hw : w.force = true ∨ w.chunks.has (env.H d) = false
          · rw [if_pos hw]; exact List.mem_cons_self
          · rw [if_neg hw]; exact List.mem_cons_self
        refine ⟨?_, ?_, rfl, rfl, ?_⟩
        · by_cases hw : w.force = true ∨ w.chunks.has (env.H d) = false
          · rw [if_pos hw]
            refine ⟨?_, ?_, ?_⟩
            · intro x y hy hH
              simp only [Dict.get?_set] at hy
              split at hy
              · cases hy; exact ⟨hdL, hlen⟩
              · exact h.chunks x y hy hH
            · intro x hx
              rcases List.mem_cons.1 hx with rfl | hx
              · exact ⟨d, hdL, hlen, rfl⟩
              · exact h.seen x hx
            · intro x hx
              rcases List.mem_cons.1 hx with rfl | hx
              · exact hlen
              · exact h.small x hx
          · rw [if_neg hw]
            refine ⟨h.chunks, ?_, ?_⟩
            · intro x hx
              rcases List.mem_cons.1 hx with rfl | hx
              · exact ⟨d, hdL, hlen, rfl⟩
              · exact h.seen x hx
            · intro x hx
              rcases List.mem_cons.1 hx with rfl | hx
              · exact hlen
              · exact h.small x hx
        · split <;> rfl
        · have e1 : (if w.force = true ∨ w.chunks.has (env.H d) = false then
              ({ w with log := d :: w.log, chunks := w.chunks.set (env.H d) (some d) } : World) else { w with log := d :: w.log }) =
              { w with log := d :: w.log, chunks := (if w.force = true ∨ w.chunks.has (env.H d) = false then
                w.chunks.set (env.H d) (some d) else w.chunks) } := by split <;> rfl
          have e2 : (if (ideal env L w).force = true ∨ (ideal env L w).chunks.has (env.H d) = false then
              ({ ideal env L w with log := d :: (ideal env L w).log, chunks := (ideal env L w).chunks.set (env.H d) (some d) } : World)
              else { ideal env L w with log := d :: (ideal env L w).log }) =
              { ideal env L w with log := d :: (ideal env L w).log } := by
            have : (ideal env L w).chunks.set (env.H d) (some d) = (ideal env L w).chunks :=
              Dict.set_same (table_get hL hdL hlen)
            rw [this]
            split <;> rfl
          rw [e1, e2]
          rfl

/-- An open file in the undamaged world. -/
def idealS (env : Env) (L : List Bytes) (s : S) : S := ⟨s.f, ideal env L s.w⟩

/-- Buffered chunks are not too large. -/
def SmallC (env : Env) (l : Dict Nat Chunk) : Prop := ∀ id c, (id, c) ∈ l → ∀ d, c.data = some d → d.length ≤ env.cs

theorem SmallC.set {env : Env} {l : Dict Nat Chunk} (h : SmallC env l) (id : Nat) {c : Chunk}
    (hc : ∀ d, c.data = some d → d.length ≤ env.cs) : SmallC env (l.set id c) := by
  intro i x hx
  rcases Dict.mem_set hx with he | he
  · cases he; exact hc
  · exact h i x he

theorem SmallC.get {env : Env} {l : Dict Nat Chunk} (h : SmallC env l) {id : Nat} {c : Chunk} (hc : l.get? id = some c) :
    ∀ d, c.data = some d → d.length ≤ env.cs := h id c (Dict.mem_of_get? hc)

/-- What is known about an open file in a damaged world. -/
structure OkS (env : Env) (L : List Bytes) (s : S) : Prop where
  w : OkW env L s.w
  small : SmallC env s.f.chunks

/-- Only the mapping file of this image changes. -/
structure Frame (s s' : S) : Prop where
  name : s'.f.name = s.f.name
  metas : ∀ n, n ≠ s.f.name → s'.w.metas.get? n = s.w.metas.get? n

theorem Frame.refl (s : S) : Frame s s := ⟨rfl, fun _ _ => rfl⟩
theorem Frame.trans {a b c : S} (h : Frame a b) (h' : Frame b c) : Frame a c :=
  ⟨h'.name.trans h.name, fun n hn => (h'.metas n (by rw [h.name]; exact hn)).trans (h.metas n hn)⟩

/-- The results `x` of an operation on `s` and `y` of the same one in the undamaged world. -/
structure Com (env : Env) (L : List Bytes) {α : Type} (s : S) (x y : Except PyErr α × S) : Prop where
  ok : OkS env L x.2
  frame : Frame s x.2
  com : ∀ a, x.1 = .ok a → y = (.ok a, idealS env L x.2)

theorem flushList_com {env : Env} {L : List Bytes} (hL : CollFree env.H L) (l : List (Nat × Chunk)) (hl : SmallC env l) :
    ∀ s : S, OkS env L s → (flushList env l s).2.w.log ⊆ L →
      Com env L s (flushList env l s) (flushList env l (idealS env L s)) := by
  induction l with
  | nil => intro s h _; exact ⟨h, Frame.refl _, fun a ha => (by cases ha; rfl)⟩
  | cons e l ih =>
    obtain ⟨id, c⟩ := e
    intro s h hlog
    have hl' : SmallC env l := fun i x hx => hl i x (by simp [hx])
    simp only [flushList] at hlog ⊢
    cases hf : c.flush env s.w with
    | error e => exact ⟨h, Frame.refl _, fun a ha => (by cases ha)⟩
    | ok r =>
      obtain ⟨h?, c', w⟩ := r
      rw [hf] at hlog
      dsimp only at hlog ⊢
      have hwl : w.log ⊆ L := by
        cases h? with
        | none => exact fun x hx => hlog (flushList_log env l _ hx)
        | some y => exact fun x hx => hlog (flushList_log env l _ hx)
      obtain ⟨o1, o2, o3⟩ := h.w.flush hL (hl id c (by simp)) hf hwl
      have e3 : c.flush env (idealS env L s).w = .ok (h?, c', ideal env L w) := o3
      rw [e3]
      dsimp only
      cases h? with
      | none =>
        have hi := ih hl' ⟨s.f, w⟩ ⟨o1, h.small⟩ hlog
        exact ⟨hi.ok, ⟨hi.frame.name, fun n hn => (hi.frame.metas n hn).trans (by rw [o2])⟩, hi.com⟩
      | some y =>
        have hi := ih hl' ⟨{ s.f with mapping := s.f.mapping.set id y }, w⟩ ⟨o1, h.small⟩ hlog
        exact ⟨hi.ok, ⟨hi.frame.name, fun n hn => (hi.frame.metas n hn).trans (by rw [o2])⟩, hi.com⟩

theorem mem_sortedChunks {f : File} {x : Nat × Chunk} (h : x ∈ f.sortedChunks) : x ∈ f.chunks := by
  unfold File.sortedChunks at h
  exact (sortBy_perm _ _).mem_iff.1 h

theorem flushChunks_com {env : Env} {L : List Bytes} (hL : CollFree env.H L) (t : Nat) {s : S} (h : OkS env L s)
    (hlog : (s.flushChunks env t).2.w.log ⊆ L) :
    Com env L s (s.flushChunks env t) ((idealS env L s).flushChunks env t) := by
  unfold S.flushChunks at hlog ⊢
  have e : (idealS env L s).f = s.f := rfl
  rw [e]
  split
  · exact ⟨h, Frame.refl _, fun a ha => (by cases ha; rfl)⟩
  · rename_i hne
    rw [if_neg hne] at hlog
    dsimp only at hlog ⊢
    have hl : (flushList env (s.f.sortedChunks.drop t) s).2.w.log ⊆ L := by
      split at hlog <;> (rename_i heq; rw [heq]; exact hlog)
    have hc := flushList_com hL (s.f.sortedChunks.drop t)
      (fun i c hx => h.small i c (mem_sortedChunks (List.mem_of_mem_drop hx))) s h hl
    obtain ⟨c1, c2, c3⟩ := hc
    generalize flushList env (s.f.sortedChunks.drop t) s = g at *
    obtain ⟨g1, g2⟩ := g
    cases g1 with
    | error e => exact ⟨c1, c2, fun a ha => (by cases ha)⟩
    | ok u =>
      rw [c3 u rfl]
      refine ⟨⟨c1.w, fun i c hx => h.small i c (mem_sortedChunks (List.mem_of_mem_take hx))⟩, ⟨c2.name, c2.metas⟩, ?_⟩
      intro a ha; rfl

theorem flush_com {env : Env} {L : List Bytes} (hL : CollFree env.H L) {s : S} (h : OkS env L s)
    (hlog : (s.flush env).2.w.log ⊆ L) : Com env L s (s.flush env) ((idealS env L s).flush env) := by
  unfold S.flush at hlog ⊢
  have e : (idealS env L s).f = s.f := rfl
  rw [e]
  split
  · exact ⟨h, Frame.refl _, fun a ha => (by cases ha)⟩
  · rename_i hne
    rw [if_neg hne] at hlog
    have hl : (s.flushChunks env 0).2.w.log ⊆ L := by
      split at hlog <;> (rename_i heq; rw [heq]; exact hlog)
    obtain ⟨c1, c2, c3⟩ := flushChunks_com hL 0 h hl
    generalize s.flushChunks env 0 = g at *
    obtain ⟨g1, g2⟩ := g
    cases g1 with
    | error e => exact ⟨c1, c2, fun a ha => (by cases ha)⟩
    | ok u =>
      rw [c3 u rfl]
      refine ⟨⟨⟨c1.w.chunks, c1.w.seen, c1.w.small⟩, c1.small⟩, ⟨c2.name, ?_⟩, fun a ha => rfl⟩
      intro n hn
      dsimp only
      rw [Dict.get?_set, if_neg (by rw [c2.name]; exact hn)]
      exact c2.metas n hn

theorem close_com {env : Env} {L : List Bytes} (hL : CollFree env.H L) {s : S} (h : OkS env L s)
    (hlog : (s.close env).2.w.log ⊆ L) : Com env L s (s.close env) ((idealS env L s).close env) := by
  unfold S.close at hlog ⊢
  have e : (idealS env L s).f = s.f := rfl
  rw [e]
  split
  · exact ⟨h, Frame.refl _, fun a ha => (by cases ha)⟩
  · rename_i hne
    rw [if_neg hne] at hlog
    split
    · rename_i hw
      rw [if_pos hw] at hlog
      have hl : (s.flush env).2.w.log ⊆ L := by
        split at hlog <;> (rename_i heq; rw [heq]; exact hlog)
      obtain ⟨c1, c2, c3⟩ := flush_com hL h hl
      generalize s.flush env = g at *
      obtain ⟨g1, g2⟩ := g
      cases g1 with
      | error e => exact ⟨c1, c2, fun a ha => (by cases ha)⟩
      | ok u =>
        rw [c3 u rfl]
        exact ⟨⟨c1.w, c1.small⟩, ⟨c2.name, c2.metas⟩, fun a ha => rfl⟩
    · exact ⟨⟨h.w, h.small⟩, ⟨rfl, fun _ _ => rfl⟩, fun a ha => (by cases ha; rfl)⟩

/-- Loading a chunk into the cache, first part of `currentChunk`. -/
def prefetch (env : Env) (s : S) : Except PyErr Unit × S :=
  if s.f.chunks.has (s.f.pos / env.cs) = true then (.ok (), s)
  else
    match s.flushChunks env flushTarget with
    | (.error e, s') => (.error e, s')
    | (.ok (), s') =>
      (.ok (), { s' with f := { s'.f with
        chunks := s'.f.chunks.set (s.f.pos / env.cs) (Chunk.new (s'.f.mapping.get? (s.f.pos / env.cs))) } })

theorem currentChunk_eq (env : Env) (s : S) : s.currentChunk env =
    match prefetch env s with
    | (.error e, s') => (.error e, s')
    | (.ok (), s') => (.ok (s.f.pos / env.cs, s.f.pos % env.cs),
      { f := { s'.f with stats := s'.f.stats.set (s.f.pos / env.cs) ((s'.f.stat (s.f.pos / env.cs)).1 + 1, env.now s'.w.tick) },
        w := { s'.w with tick := s'.w.tick + 1 } }) := by
  unfold S.currentChunk prefetch
  dsimp only
  by_cases hh : s.f.chunks.has (s.f.pos / env.cs) = true
  · simp only [if_pos hh]
  · simp only [if_neg hh]
    generalize s.flushChunks env flushTarget = g
    obtain ⟨g1, g2⟩ := g
    cases g1 <;> rfl

theorem prefetch_com {env : Env} {L : List Bytes} (hL : CollFree env.H L) {s : S} (h : OkS env L s)
    (hlog : (prefetch env s).2.w.log ⊆ L) : Com env L s (prefetch env s) (prefetch env (idealS env L s)) := by
  unfold prefetch at hlog ⊢
  have e : (idealS env L s).f = s.f := rfl
  rw [e]
  split
  · exact ⟨h, Frame.refl _, fun a ha => (by cases ha; rfl)⟩
  · rename_i hne
    rw [if_neg hne] at hlog
    have hl : (s.flushChunks env flushTarget).2.w.log ⊆ L := by
      split at hlog <;> (rename_i heq; rw [heq]; exact hlog)
    obtain ⟨c1, c2, c3⟩ := flushChunks_com hL flushTarget h hl
    generalize s.flushChunks env flushTarget = g at *
    obtain ⟨g1, g2⟩ := g
    cases g1 with
    | error e => exact ⟨c1, c2, fun a ha => (by cases ha)⟩
    | ok u =>
      rw [c3 u rfl]
      refine ⟨⟨c1.w, c1.small.set _ ?_⟩, ⟨c2.name, c2.metas⟩, fun a ha => rfl⟩
      intro d hd; cases hd

theorem currentChunk_com {env : Env} {L : List Bytes} (hL : CollFree env.H L) {s : S} (h : OkS env L s)
    (hlog : (s.currentChunk env).2.w.log ⊆ L) : Com env L s (s.currentChunk env) ((idealS env L s).currentChunk env) := by
  rw [currentChunk_eq] at hlog ⊢
  rw [currentChunk_eq env (idealS env L s)]
  have e : (idealS env L s).f = s.f := rfl
  rw [e]
  have hl : (prefetch env s).2.w.log ⊆ L := by
    split at hlog <;> (rename_i heq; rw [heq]; exact hlog)
  obtain ⟨c1, c2, c3⟩ := prefetch_com hL h hl
  generalize prefetch env s = g at *
  obtain ⟨g1, g2⟩ := g
  cases g1 with
  | error e => exact ⟨c1, c2, fun a ha => (by cases ha)⟩
  | ok u =>
    rw [c3 u rfl]
    exact ⟨⟨⟨c1.w.chunks, c1.w.seen, c1.w.small⟩, c1.small⟩, ⟨c2.name, c2.metas⟩, fun a ha => (by cases ha; rfl)⟩

theorem chunkRead_com {env : Env} {L : List Bytes} (hL : CollFree env.H L) {w : World} (h : OkW env L w) {c c' : Chunk}
    {offset : Nat} {size r : Int} {d : Bytes} (hc : ∀ d, c.data = some d → d.length ≤ env.cs)
    (hr : c.read env w offset size = .ok (d, r, c')) :
    c.read env (ideal env L w) offset size = .ok (d, r, c') ∧ ∀ d, c'.data = some d → d.length ≤ env.cs := by
  unfold Chunk.read at hr ⊢
  cases hx : c.readExisting env w with
  | error e => rw [hx] at hr; cases hr
  | ok c1 =>
    obtain ⟨h1, h2⟩ := h.readExisting hL hc hx
    rw [hx] at hr
    rw [h1]
    dsimp only at hr ⊢
    refine ⟨hr, ?_⟩
    cases hd : c1.data with
    | none => rw [hd] at hr; cases hr
    | some b =>
      rw [hd] at hr
      cases hr
      exact h2

theorem writeAt_small {n : Nat} {b d : Bytes} {off : Nat} (hb : b.length ≤ n) (hd : off + d.length ≤ n) :
    (writeAt b off d).length ≤ n := by
  unfold writeAt
  split
  · exact hb
  · simp only [List.length_append, List.length_take, zeros, List.length_replicate, List.length_drop]
    omega

theorem chunkWrite_com {env : Env} {L : List Bytes} (hL : CollFree env.H L) {w : World} (h : OkW env L w) {c c' : Chunk}
    {offset n : Nat} {data rest : Bytes} (hc : ∀ d, c.data = some d → d.length ≤ env.cs) (ho : offset ≤ env.cs)
    (hr : c.write env w offset data = .ok (n, rest, c')) :
    c.write env (ideal env L w) offset data = .ok (n, rest, c') ∧ ∀ d, c'.data = some d → d.length ≤ env.cs := by
  unfold Chunk.write at hr ⊢
  dsimp only at hr ⊢
  split at hr
  · rename_i hf
    rw [if_pos hf]
    refine ⟨hr, ?_⟩
    cases hr
    intro d hd
    simp only [Option.some.injEq] at hd
    rw [← hd, hf.2]
  · rename_i hf
    rw [if_neg hf]
    cases hx : c.readExisting env w with
    | error e => rw [hx] at hr; cases hr
    | ok c1 =>
      obtain ⟨h1, h2⟩ := h.readExisting hL hc hx
      rw [hx] at hr
      rw [h1]
      dsimp only at hr ⊢
      refine ⟨hr, ?_⟩
      cases hd : c1.data with
      | none => rw [hd] at hr; cases hr
      | some b =>
        rw [hd] at hr
        cases hr
        intro d hd'
        simp only [Option.some.injEq] at hd'
        rw [← hd']
        exact writeAt_small (h2 b hd) (by simp only [List.length_take]; omega)

theorem Com.err {env : Env} {L : List Bytes} {α β : Type} {s : S} {x y : Except PyErr α × S} (h : Com env L s x y) {e : PyErr}
    {s' : S} {z : Except PyErr β × S} (hs : x.2 = s') : Com env L s ((.error e, s') : Except PyErr β × S) z := by
  subst hs
  exact ⟨h.ok, h.frame, fun a ha => (by cases ha)⟩

theorem readLoop_com {env : Env} {L : List Bytes} (hL : CollFree env.H L) (fuel : Nat) :
    ∀ (s : S) (size : Int) (acc : Bytes), OkS env L s → (s.readLoop env fuel size acc).2.w.log ⊆ L →
      Com env L s (s.readLoop env fuel size acc) ((idealS env L s).readLoop env fuel size acc) := by
  induction fuel with
  | zero =>
    intro s size acc h _
    unfold S.readLoop
    split
    · exact ⟨h, Frame.refl _, fun a ha => (by cases ha; rfl)⟩
    · exact ⟨h, Frame.refl _, fun a ha => (by cases ha)⟩
  | succ n ih =>
    intro s size acc h hlog
    unfold S.readLoop at hlog ⊢
    split
    · exact ⟨h, Frame.refl _, fun a ha => (by cases ha; rfl)⟩
    · rename_i h0
      rw [if_neg h0] at hlog
      dsimp only at hlog ⊢
      have hl : (s.currentChunk env).2.w.log ⊆ L := by
        split at hlog
        · rename_i heq; rw [heq]; exact hlog
        · rename_i heq; rw [heq]
          split at hlog
          · exact hlog
          · split at hlog
            · exact hlog
            · split at hlog
              · exact hlog
              · intro x hx
                apply hlog
                exact S.readLoop_log env n _ _ _ hx
      obtain ⟨c1, c2, c3⟩ := currentChunk_com hL h hl
      generalize s.currentChunk env = g at *
      obtain ⟨g1, g2⟩ := g
      cases g1 with
      | error e => exact ⟨c1, c2, fun a ha => (by cases ha)⟩
      | ok io =>
        obtain ⟨id, off⟩ := io
        rw [c3 _ rfl]
        dsimp only at hlog c1 c2 c3 ⊢
        have e : (idealS env L g2).f = g2.f := rfl
        rw [e]
        cases hg : g2.f.chunks.get? id with
        | none => exact ⟨c1, c2, fun a ha => (by cases ha)⟩
        | some c =>
          rw [hg] at hlog
          dsimp only at hlog ⊢
          cases hr : c.read env g2.w off size with
          | error e => exact ⟨c1, c2, fun a ha => (by cases ha)⟩
          | ok r =>
            obtain ⟨data, size', c'⟩ := r
            obtain ⟨r1, r2⟩ := chunkRead_com hL c1.w (c1.small.get hg) hr
            have r1' : c.read env (idealS env L g2).w off size = .ok (data, size', c') := r1
            rw [r1']
            rw [hr] at hlog
            dsimp only at hlog ⊢
            have hk : OkS env L ⟨{ g2.f with chunks := g2.f.chunks.set id c' }, g2.w⟩ := ⟨c1.w, c1.small.set id r2⟩
            split
            · exact ⟨hk, ⟨c2.name, c2.metas⟩, fun a ha => (by cases ha)⟩
            · rename_i hd
              rw [if_neg hd] at hlog
              have hi := ih ⟨{ g2.f with chunks := g2.f.chunks.set id c', pos := g2.f.pos + data.length }, g2.w⟩ size' (acc ++ data)
                ⟨c1.w, hk.small⟩ hlog
              exact ⟨hi.ok, Frame.trans (b := ⟨{ g2.f with chunks := g2.f.chunks.set id c', pos := g2.f.pos + data.length }, g2.w⟩)
                ⟨c2.name, c2.metas⟩ hi.frame, hi.com⟩

theorem read_com {env : Env} {L : List Bytes} (hL : CollFree env.H L) (n : Int) {s : S} (h : OkS env L s)
    (hlog : (s.read env n).2.w.log ⊆ L) : Com env L s (s.read env n) ((idealS env L s).read env n) := by
  unfold S.read at hlog ⊢
  have e : (idealS env L s).f = s.f := rfl
  rw [e]
  split
  · exact ⟨h, Frame.refl _, fun a ha => (by cases ha)⟩
  · rename_i hne
    rw [if_neg hne] at hlog
    exact readLoop_com hL _ s _ _ h hlog

theorem writeLoop_com {env : Env} {L : List Bytes} (hL : CollFree env.H L) (k : Nat) :
    ∀ (s : S) (data : Bytes), data.length ≤ k → OkS env L s → (s.writeLoop env data).2.w.log ⊆ L →
      Com env L s (s.writeLoop env data) ((idealS env L s).writeLoop env data) := by
  induction k with
  | zero =>
    intro s data hk h _
    have : data = [] := List.length_eq_zero_iff.1 (by omega)
    subst this
    unfold S.writeLoop
    simp only [if_true]
    exact ⟨h, Frame.refl _, fun a ha => rfl⟩
  | succ k ih =>
    intro s data hk h hlog
    unfold S.writeLoop at hlog ⊢
    split
    · exact ⟨h, Frame.refl _, fun a ha => rfl⟩
    · rename_i h0
      rw [if_neg h0] at hlog
      have hl : (s.currentChunk env).2.w.log ⊆ L := by
        split at hlog
        · rename_i heq; rw [heq]; exact hlog
        · rename_i heq; rw [heq]
          split at hlog
          · exact hlog
          · split at hlog
            · exact hlog
            · split at hlog
              · intro x hx
                apply hlog
                exact S.writeLoop_log env _ _ hx
              · exact hlog
      have hoff : ∀ id off, (s.currentChunk env).1 = .ok (id, off) → off ≤ env.cs := by
        intro id off ho
        rw [currentChunk_eq] at ho
        split at ho
        · cases ho
        · simp only [Except.ok.injEq, Prod.mk.injEq] at ho
          rw [← ho.2]
          exact Nat.le_of_lt (Nat.mod_lt _ env.cs_pos)
      obtain ⟨c1, c2, c3⟩ := currentChunk_com hL h hl
      generalize s.currentChunk env = g at *
      obtain ⟨g1, g2⟩ := g
      cases g1 with
      | error e => exact ⟨c1, c2, fun a ha => (by cases ha)⟩
      | ok io =>
        obtain ⟨id, off⟩ := io
        rw [c3 _ rfl]
        dsimp only at hlog c1 c2 c3 ⊢
        have e : (idealS env L g2).f = g2.f := rfl
        rw [e]
        cases hg : g2.f.chunks.get? id with
        | none => exact ⟨c1, c2, fun a ha => (by cases ha)⟩
        | some c =>
          rw [hg] at hlog
          dsimp only at hlog ⊢
          cases hr : c.write env g2.w off data with
          | error e => exact ⟨c1, c2, fun a ha => (by cases ha)⟩
          | ok r =>
            obtain ⟨n, rest, c'⟩ := r
            obtain ⟨r1, r2⟩ := chunkWrite_com hL c1.w (c1.small.get hg) (hoff id off rfl) hr
            have r1' : c.write env (idealS env L g2).w off data = .ok (n, rest, c') := r1
            rw [r1']
            rw [hr] at hlog
            dsimp only at hlog ⊢
            split
            · rename_i hlt
              rw [dif_pos hlt] at hlog
              have hi := ih ⟨{ g2.f with chunks := g2.f.chunks.set id c', pos := g2.f.pos + n, size := max g2.f.size (g2.f.pos + n) }, g2.w⟩
                rest (by omega) ⟨c1.w, c1.small.set id r2⟩ hlog
              exact ⟨hi.ok, Frame.trans (b := ⟨{ g2.f with chunks := g2.f.chunks.set id c', pos := g2.f.pos + n, size := max g2.f.size (g2.f.pos + n) }, g2.w⟩)
                ⟨c2.name, c2.metas⟩ hi.frame, hi.com⟩
            · exact ⟨c1, c2, fun a ha => (by cases ha)⟩

theorem write_com {env : Env} {L : List Bytes} (hL : CollFree env.H L) (d : Bytes) {s : S} (h : OkS env L s)
    (hlog : (s.write env d).2.w.log ⊆ L) : Com env L s (s.write env d) ((idealS env L s).write env d) := by
  unfold S.write at hlog ⊢
  have e : (idealS env L s).f = s.f := rfl
  rw [e]
  split
  · exact ⟨h, Frame.refl _, fun a ha => (by cases ha)⟩
  · rename_i hne
    rw [if_neg hne] at hlog
    exact writeLoop_com hL d.length s d (Nat.le_refl _) h hlog

theorem fill_com {env : Env} {L : List Bytes} (hL : CollFree env.H L) (k : Nat) :
    ∀ (s : S) (n : Nat), n ≤ k → OkS env L s → (s.fill env n).2.w.log ⊆ L →
      Com env L s (s.fill env n) ((idealS env L s).fill env n) := by
  induction k with
  | zero =>
    intro s n hk h _
    have : n = 0 := by omega
    subst this
    unfold S.fill
    simp only [dite_true]
    exact ⟨h, Frame.refl _, fun a ha => rfl⟩
  | succ k ih =>
    intro s n hk h hlog
    unfold S.fill at hlog ⊢
    split
    · exact ⟨h, Frame.refl _, fun a ha => rfl⟩
    · rename_i h0
      rw [dif_neg h0] at hlog
      dsimp only at hlog ⊢
      have hl : (s.write env (zeros (min n env.blk))).2.w.log ⊆ L := by
        split at hlog
        · rename_i heq; rw [heq]; exact hlog
        · rename_i heq; rw [heq]
          exact fun x hx => hlog (S.fill_log env _ _ hx)
      obtain ⟨c1, c2, c3⟩ := write_com hL (zeros (min n env.blk)) h hl
      generalize s.write env (zeros (min n env.blk)) = g at *
      obtain ⟨g1, g2⟩ := g
      cases g1 with
      | error e => exact ⟨c1, c2, fun a ha => (by cases ha)⟩
      | ok u =>
        rw [c3 u rfl]
        dsimp only at hlog c1 c2 ⊢
        have := env.blk_pos
        have hi := ih g2 (n - min n env.blk) (by omega) c1 hlog
        exact ⟨hi.ok, c2.trans hi.frame, hi.com⟩

theorem seek_com {env : Env} {L : List Bytes} (hL : CollFree env.H L) (o : Int) (wh : Whence) {s : S} (h : OkS env L s)
    (hlog : (s.seek env o wh).2.w.log ⊆ L) : Com env L s (s.seek env o wh) ((idealS env L s).seek env o wh) := by
  unfold S.seek at hlog ⊢
  have e : (idealS env L s).f = s.f := rfl
  rw [e]
  split
  · exact ⟨h, Frame.refl _, fun a ha => (by cases ha)⟩
  · rename_i hne
    rw [if_neg hne] at hlog
    cases ht : s.f.seekTarget o wh with
    | error e => exact ⟨h, Frame.refl _, fun a ha => (by cases ha)⟩
    | ok p =>
      rw [ht] at hlog
      dsimp only at hlog ⊢
      split
      · exact ⟨h, Frame.refl _, fun a ha => (by cases ha)⟩
      · rename_i hn
        rw [if_neg hn] at hlog
        split
        · rename_i hgt
          rw [if_pos hgt] at hlog
          have hl : (S.fill env ⟨{ s.f with pos := s.f.size }, s.w⟩ (p.toNat - s.f.size)).2.w.log ⊆ L := by
            split at hlog
            · rename_i heq; rw [heq]; exact hlog
            · rename_i heq; rw [heq]
              split at hlog <;> exact hlog
          obtain ⟨c1, c2, c3⟩ := fill_com hL _ ⟨{ s.f with pos := s.f.size }, s.w⟩ (p.toNat - s.f.size) (Nat.le_refl _)
            ⟨h.w, h.small⟩ hl
          have e2 : idealS env L ⟨{ s.f with pos := s.f.size }, s.w⟩ = ⟨{ s.f with pos := s.f.size }, (idealS env L s).w⟩ := rfl
          rw [e2] at c3
          generalize S.fill env ⟨{ s.f with pos := s.f.size }, s.w⟩ (p.toNat - s.f.size) = g at *
          obtain ⟨g1, g2⟩ := g
          cases g1 with
          | error e => exact ⟨c1, ⟨c2.name, c2.metas⟩, fun a ha => (by cases ha)⟩
          | ok u =>
            rw [c3 u rfl]
            dsimp only
            have e3 : (idealS env L g2).f = g2.f := rfl
            rw [e3]
            split
            · exact ⟨c1, ⟨c2.name, c2.metas⟩, fun a ha => (by cases ha; rfl)⟩
            · exact ⟨c1, ⟨c2.name, c2.metas⟩, fun a ha => (by cases ha)⟩
        · exact ⟨⟨h.w, h.small⟩, ⟨rfl, fun _ _ => rfl⟩, fun a ha => (by cases ha; rfl)⟩

theorem truncate_com {env : Env} {L : List Bytes} (hL : CollFree env.H L) (n : Option Nat) {s : S} (h : OkS env L s)
    (hlog : (s.truncate env n).2.w.log ⊆ L) : Com env L s (s.truncate env n) ((idealS env L s).truncate env n) := by
  unfold S.truncate at hlog ⊢
  have e : (idealS env L s).f = s.f := rfl
  rw [e]
  split
  · exact ⟨h, Frame.refl _, fun a ha => (by cases ha)⟩
  · rename_i hne
    rw [if_neg hne] at hlog
    dsimp only at hlog ⊢
    obtain ⟨c1, c2, c3⟩ := flush_com hL (s := ⟨{ s.f with size := n.getD s.f.pos, mapping := s.f.mapping.filter (fun e => decide (¬ e.1 * env.cs > n.getD s.f.pos)) }, s.w⟩)
      ⟨h.w, h.small⟩ hlog
    exact ⟨c1, ⟨c2.name, c2.metas⟩, c3⟩

/-- The same for a method call. -/
structure ComStep (env : Env) (L : List Bytes) (s : S) (x y : S × Except PyErr Out) : Prop where
  ok : OkS env L x.1
  frame : Frame s x.1
  com : ∀ a, x.2 = .ok a → y = (idealS env L x.1, .ok a)

theorem Com.step {env : Env} {L : List Bytes} {α : Type} {s : S} {x y : Except PyErr α × S} (h : Com env L s x y) (g : α → Out) :
    ComStep env L s (outOf g x) (outOf g y) := by
  refine ⟨h.ok, h.frame, ?_⟩
  intro a ha
  obtain ⟨x1, x2⟩ := x
  cases x1 with
  | error e => cases ha
  | ok b => rw [h.com b rfl]; cases ha; rfl

theorem step_com {env : Env} {L : List Bytes} (hL : CollFree env.H L) (op : Op) {s : S} (h : OkS env L s)
    (hlog : (s.step env op).1.w.log ⊆ L) : ComStep env L s (s.step env op) ((idealS env L s).step env op) := by
  cases op with
  | seek o wh => exact (seek_com hL o wh h hlog).step _
  | write d => exact (write_com hL d h hlog).step _
  | read n => exact (read_com hL _ h hlog).step _
  | truncate => exact (truncate_com hL none h hlog).step _
  | flush => exact (flush_com hL h hlog).step _
  | tell =>
    have : Com env L s s.tell (idealS env L s).tell := by
      unfold S.tell
      have e : (idealS env L s).f = s.f := rfl
      rw [e]
      split
      · exact ⟨h, Frame.refl _, fun a ha => (by cases ha)⟩
      · exact ⟨h, Frame.refl _, fun a ha => (by cases ha; rfl)⟩
    exact this.step _
  | close => exact (close_com hL h hlog).step _

theorem exec_com {env : Env} {L : List Bytes} (hL : CollFree env.H L) (ops : List Op) :
    ∀ s : S, OkS env L s → (exec env ops s).2.w.log ⊆ L → Com env L s (exec env ops s) (exec env ops (idealS env L s)) := by
  induction ops with
  | nil => intro s h _; exact ⟨h, Frame.refl _, fun a ha => rfl⟩
  | cons op ops ih =>
    intro s h hlog
    unfold exec at hlog ⊢
    dsimp only at hlog ⊢
    have hl : (s.step env op).1.w.log ⊆ L := by
      split at hlog
      · exact hlog
      · exact fun x hx => hlog (exec_log env ops _ hx)
    obtain ⟨c1, c2, c3⟩ := step_com hL op h hl
    generalize s.step env op = g at *
    obtain ⟨g1, g2⟩ := g
    cases g2 with
    | error e => exact ⟨c1, c2, fun a ha => (by cases ha)⟩
    | ok u =>
      rw [c3 u rfl]
      dsimp only at hlog c1 c2 ⊢
      have hi := ih g1 c1 hlog
      exact ⟨hi.ok, c2.trans hi.frame, hi.com⟩

theorem applyRec_com {env : Env} {L : List Bytes} (hL : CollFree env.H L) (f t : Bytes) (r : Rec) {s : S} (h : OkS env L s)
    (hlog : (applyRec env f t s r).2.w.log ⊆ L) :
    Com env L s (applyRec env f t s r) (applyRec env f t (idealS env L s) r) := by
  cases r with
  | size n => exact exec_com hL _ s h hlog
  | fromSnap b =>
    simp only [applyRec]
    split
    · exact ⟨h, Frame.refl _, fun a ha => rfl⟩
    · exact ⟨h, Frame.refl _, fun a ha => (by cases ha)⟩
  | toSnap b =>
    simp only [applyRec]
    split
    · exact ⟨h, Frame.refl _, fun a ha => rfl⟩
    · exact ⟨h, Frame.refl _, fun a ha => (by cases ha)⟩
  | zero start length =>
    simp only [applyRec] at hlog ⊢
    have hl : (exec env [.seek start .set] s).2.w.log ⊆ L := by
      split at hlog
      · rename_i heq; rw [heq]; exact hlog
      · rename_i heq; rw [heq]
        unfold punchHole at hlog
        split at hlog
        · exact hlog
        · exact fun x hx => hlog (exec_log env _ _ hx)
    obtain ⟨c1, c2, c3⟩ := exec_com hL [.seek start .set] s h hl
    generalize exec env [.seek start .set] s = g at *
    obtain ⟨g1, g2⟩ := g
    cases g1 with
    | error e => exact ⟨c1, c2, fun a ha => (by cases ha)⟩
    | ok u =>
      rw [c3 u rfl]
      dsimp only at hlog c1 c2 ⊢
      unfold punchHole at hlog ⊢
      split
      · exact ⟨c1, c2, fun a ha => (by cases ha)⟩
      · rename_i hz
        rw [if_neg hz] at hlog
        have hi := exec_com hL _ g2 c1 hlog
        exact ⟨hi.ok, c2.trans hi.frame, hi.com⟩
  | data start n chunks => exact exec_com hL _ s h hlog

theorem applyRecs_com {env : Env} {L : List Bytes} (hL : CollFree env.H L) (f t : Bytes) (l : List Rec) :
    ∀ s : S, OkS env L s → (applyRecs env f t l s).2.w.log ⊆ L →
      Com env L s (applyRecs env f t l s) (applyRecs env f t l (idealS env L s)) := by
  induction l with
  | nil => intro s h _; exact ⟨h, Frame.refl _, fun a ha => rfl⟩
  | cons r l ih =>
    intro s h hlog
    unfold applyRecs at hlog ⊢
    have hl : (applyRec env f t s r).2.w.log ⊆ L := by
      split at hlog
      · rename_i heq; rw [heq]; exact hlog
      · rename_i heq; rw [heq]
        exact fun x hx => hlog (applyRecs_log env f t l _ hx)
    obtain ⟨c1, c2, c3⟩ := applyRec_com hL f t r h hl
    generalize applyRec env f t s r = g at *
    obtain ⟨g1, g2⟩ := g
    cases g1 with
    | error e => exact ⟨c1, c2, fun a ha => (by cases ha)⟩
    | ok u =>
      rw [c3 u rfl]
      dsimp only at hlog c1 c2 ⊢
      have hi := ih g2 c1 hlog
      exact ⟨hi.ok, c2.trans hi.frame, hi.com⟩

theorem integrate_com {env : Env} {L : List Bytes} (hL : CollFree env.H L) (stream f t : Bytes) {s : S} (h : OkS env L s)
    (hlog : (integrate env stream f t s).2.w.log ⊆ L) :
    Com env L s (integrate env stream f t s) (integrate env stream f t (idealS env L s)) := by
  unfold integrate at hlog ⊢
  dsimp only at hlog ⊢
  have hl : (applyRecs env f t (decode env stream).1 s).2.w.log ⊆ L := by
    split at hlog
    · rename_i heq; rw [heq]; exact hlog
    · rename_i heq; rw [heq]
      split at hlog <;> exact hlog
  obtain ⟨c1, c2, c3⟩ := applyRecs_com hL f t (decode env stream).1 s h hl
  generalize applyRecs env f t (decode env stream).1 s = g at *
  obtain ⟨g1, g2⟩ := g
  cases g1 with
  | error e => exact ⟨c1, c2, fun a ha => (by cases ha)⟩
  | ok u =>
    rw [c3 u rfl]
    dsimp only
    cases (decode env stream).2 with
    | none => exact ⟨c1, c2, fun a ha => rfl⟩
    | some e => exact ⟨c1, c2, fun a ha => (by cases ha)⟩

theorem transfer_com {env : Env} {L : List Bytes} (hL : CollFree env.H L) (o : Rbd) (uuid : String) (p : Option Rev) {s : S}
    (h : OkS env L s) (hlog : (transfer env o uuid p s).2.w.log ⊆ L) :
    Com env L s (transfer env o uuid p s) (transfer env o uuid p (idealS env L s)) := by
  cases p with
  | none => exact exec_com hL _ s h hlog
  | some p => exact integrate_com hL _ _ _ h hlog

/-- What is known about a world in which the image `uuid` is being written. -/
structure FrameW (uuid : String) (w w' : World) : Prop where
  metas : ∀ n, n ≠ uuid → w'.metas.get? n = w.metas.get? n

theorem closing_com {env : Env} {L : List Bytes} (hL : CollFree env.H L) {s : S} {x y : Except PyErr Unit × S} (h : Com env L s x y)
    (hlog : (closing env x).2.log ⊆ L) :
    OkW env L (closing env x).2 ∧ FrameW s.f.name s.w (closing env x).2 ∧
      (∀ a, (closing env x).1 = .ok a → closing env y = (.ok a, ideal env L (closing env x).2)) := by
  unfold closing at hlog ⊢
  have hl : (x.2.close env).2.w.log ⊆ L := by
    split at hlog <;> (rename_i heq; rw [heq]; exact hlog)
  obtain ⟨c1, c2, c3⟩ := close_com hL h.ok hl
  have hfr := h.frame.trans c2
  obtain ⟨x1, x2⟩ := x
  dsimp only at *
  generalize hg : x2.close env = g at *
  obtain ⟨g1, g2⟩ := g
  cases g1 with
  | error e => exact ⟨c1.w, ⟨hfr.metas⟩, fun a ha => (by cases ha)⟩
  | ok u =>
    refine ⟨c1.w, ⟨hfr.metas⟩, ?_⟩
    intro a ha
    dsimp only at ha
    subst ha
    rw [h.com a rfl]
    dsimp only
    rw [c3 u rfl]
    rfl

theorem open_ideal (env : Env) (L : List Bytes) (w : World) (n : String) (m : Mode) :
    File.open (ideal env L w) n m = match File.open w n m with
      | .error e => .error e
      | .ok s => .ok (idealS env L s) := by
  unfold File.open
  have e : (ideal env L w).metas = w.metas := rfl
  rw [e]
  cases w.metas.get? n with
  | none => dsimp only; split <;> rfl
  | some x => cases x <;> rfl

theorem open_okS {env : Env} {L : List Bytes} {w : World} (h : OkW env L w) {n : String} {m : Mode} {s : S}
    (hs : File.open w n m = .ok s) : OkS env L s ∧ s.f.name = n ∧ s.w = w := by
  unfold File.open at hs
  split at hs
  · split at hs
    · cases hs
    · cases hs; exact ⟨⟨h, fun i c hc => (by cases hc)⟩, rfl, rfl⟩
  · cases hs
  · cases hs; exact ⟨⟨h, fun i c hc => (by cases hc)⟩, rfl, rfl⟩

theorem writePhase_com {env : Env} {L : List Bytes} (hL : CollFree env.H L) (o : Rbd) (uuid : String) (parent : Option Rev) {s : Src}
    (h : OkW env L s.w) (hlog : (writePhase env o uuid parent s).2.log ⊆ L) :
    OkW env L (writePhase env o uuid parent s).2 ∧ FrameW uuid s.w (writePhase env o uuid parent s).2 ∧
      (∀ a, (writePhase env o uuid parent s).1 = .ok a →
        writePhase env o uuid parent { s with w := ideal env L s.w } = (.ok a, ideal env L (writePhase env o uuid parent s).2)) := by
  have hmeta : ∀ x : Option Meta, FrameW uuid s.w { s.w with metas := s.w.metas.set uuid x } := by
    intro x
    refine ⟨fun n hn => ?_⟩
    dsimp only
    rw [Dict.get?_set, if_neg hn]
  have hcopy : (∃ e, copyParent s.w uuid parent = .error e ∧ copyParent (ideal env L s.w) uuid parent = .error e) ∨
      ∃ w, copyParent s.w uuid parent = .ok w ∧ copyParent (ideal env L s.w) uuid parent = .ok (ideal env L w) ∧ OkW env L w ∧
        FrameW uuid s.w w := by
    unfold copyParent
    have e : (ideal env L s.w).metas = s.w.metas := rfl
    rw [e]
    cases parent with
    | none => exact .inr ⟨_, rfl, rfl, h, ⟨fun _ _ => rfl⟩⟩
    | some p =>
      dsimp only
      split
      · exact .inr ⟨_, rfl, rfl, h, ⟨fun _ _ => rfl⟩⟩
      · cases s.w.metas.get? p.uuid with
        | none => exact .inl ⟨_, rfl, rfl⟩
        | some m => exact .inr ⟨_, rfl, rfl, ⟨h.chunks, h.seen, h.small⟩, hmeta m⟩
  unfold writePhase openWrite at hlog ⊢
  simp only [containsDistrusted_false, Bool.false_eq_true, if_false] at hlog ⊢
  rcases hcopy with ⟨e, h1, h2⟩ | ⟨w, h1, h2, h3, h4⟩
  · rw [h1]
    exact ⟨⟨h.chunks, h.seen, h.small⟩, hmeta none, fun a ha => (by cases ha)⟩
  · rw [h1] at hlog
    rw [h1, h2]
    dsimp only at hlog ⊢
    rw [open_ideal]
    cases hf : File.open w uuid wb with
    | error e => exact ⟨h3, h4, fun a ha => (by cases ha)⟩
    | ok f =>
      rw [hf] at hlog
      dsimp only at hlog ⊢
      obtain ⟨o1, o2, o3⟩ := open_okS h3 hf
      have ht := transfer_com hL o uuid parent o1 (fun x hx => hlog (closing_log env _ hx))
      obtain ⟨c1, c2, c3⟩ := closing_com hL ht hlog
      rw [o2, o3] at c2
      exact ⟨c1, ⟨fun n hn => (c2.metas n hn).trans (h4.metas n hn)⟩, c3⟩

end Verif.Backup
