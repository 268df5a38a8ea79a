import Verif.Model.FullDisk
import Verif.Proofs.BackupRun
/-!
# A backup on a disk that may be full: either nothing failed, or the process ends with an error and leaves little behind
-/
namespace Verif.FullDisk
open Verif Verif.Chunked Verif.Spec Verif.Rbd Verif.Repo Verif.Files Verif.Diff Verif.Backup

/-- What writing the image `name` in the world `w0` may have left so far. -/
structure Left (env : Env) (name : String) (w0 w : World) : Prop where
  old : ∀ h x, w0.chunks.get? h = some x → w.chunks.get? h = some x
  new : ∀ h x, w.chunks.get? h = some x → w0.chunks.get? h = some x ∨
    ∃ d, x = some d ∧ env.H d = h ∧ d ∈ w.log ∧ d.length ≤ env.cs
  metas : ∀ n, n ≠ name → w.metas.get? n = w0.metas.get? n
  log : w0.log ⊆ w.log
  small : ∀ d ∈ w.log, d ∈ w0.log ∨ d.length ≤ env.cs
  force : w.force = false

/-- The chunk files that can be read are not too long. -/
def Short (env : Env) (w : World) : Prop :=
  ∀ h d, w.chunks.get? h = some (some d) → env.H d = h → d.length ≤ env.cs

/-- A buffer is not too long, and what is to be written is in a buffer. -/
structure Fine (env : Env) (c : Chunk) : Prop where
  len : ∀ d, c.data = some d → d.length ≤ env.cs
  data : c.clean = false → ∃ d, c.data = some d

/-- The invariant. -/
structure Inv (env : Env) (name : String) (w0 : World) (t : T) : Prop where
  named : t.s.f.name = name
  left : Left env name w0 t.s.w
  fine : ∀ p ∈ t.s.f.chunks, Fine env p.2

/-- A call on a disk that may be full, and the same call on a disk with room in the same state. -/
structure Agree (env : Env) (d : Drive) (name : String) (w0 : World) (t : T) {α : Type} (x : Except PyErr α × T)
    (y : Except PyErr α × S) : Prop where
  inv : Inv env name w0 x.2
  mono : t.failed = true → x.2.failed = true
  same : x.2.failed = false → x.1 = y.1 ∧ x.2.s = y.2
  err : t.failed = false → x.2.failed = true → ∃ e, e ≠ .backend ∧ x.1 = .error e
  fine : (∀ n, d n = .done) → x.2.failed = t.failed

/-- The next call after one that succeeded. -/
def andT {α β : Type} (x : Except PyErr α × T) (f : α → T → Except PyErr β × T) : Except PyErr β × T :=
  match x with
  | (.error e, t) => (.error e, t)
  | (.ok a, t) => f a t

/-- The next call after one that succeeded. -/
def andS {α β : Type} (y : Except PyErr α × S) (g : α → S → Except PyErr β × S) : Except PyErr β × S :=
  match y with
  | (.error e, s) => (.error e, s)
  | (.ok a, s) => g a s

section
variable {env : Env} {d : Drive} {name : String} {w0 : World} {t : T}

theorem Agree.bind0 {α β : Type} {x : Except PyErr α × T} {y : Except PyErr α × S} (h : Agree env d name w0 t x y)
    {f : α → T → Except PyErr β × T} {g : α → S → Except PyErr β × S}
    (hf : ∀ a t', x = (.ok a, t') → Inv env name w0 t' → Agree env d name w0 t' (f a t') (g a t'.s)) :
    Agree env d name w0 t (andT x f) (andS y g) := by
  obtain ⟨x1, t1⟩ := x
  obtain ⟨inv, mono, same, err, fine⟩ := h
  dsimp only at inv mono same err fine
  cases x1 with
  | error e =>
    refine ⟨inv, mono, ?_, ?_, fine⟩
    · intro hx
      obtain ⟨q1, q2⟩ := same hx
      obtain ⟨y1, y2⟩ := y
      dsimp only at q1 q2
      subst q1 q2
      exact ⟨rfl, rfl⟩
    · intro h1 h2
      obtain ⟨e', q1, q2⟩ := err h1 h2
      cases q2
      exact ⟨e, q1, rfl⟩
  | ok a =>
    have h2 := hf a t1 rfl inv
    refine ⟨h2.inv, fun hh => h2.mono (mono hh), ?_, ?_, fun hd => (h2.fine hd).trans (fine hd)⟩
    · intro hx
      have ht1 : t1.failed = false := by
        by_contra hne
        have hh := h2.mono (by simpa using hne)
        rw [show (f a t1).2.failed = false from hx] at hh
        cases hh
      obtain ⟨q1, q2⟩ := same ht1
      obtain ⟨y1, y2⟩ := y
      dsimp only at q1 q2
      subst q1 q2
      exact h2.same hx
    · intro h1 hx
      have ht1 : t1.failed = false := by
        by_contra hne
        obtain ⟨e', _, q2⟩ := err h1 (by simpa using hne)
        cases q2
      exact h2.err ht1 hx

theorem Agree.bind {α β : Type} {x : Except PyErr α × T} {y : Except PyErr α × S} (h : Agree env d name w0 t x y)
    {f : α → T → Except PyErr β × T} {g : α → S → Except PyErr β × S} {x' : Except PyErr β × T} {y' : Except PyErr β × S}
    (hf : ∀ a t', x = (.ok a, t') → Inv env name w0 t' → Agree env d name w0 t' (f a t') (g a t'.s))
    (hx : x' = andT x f := by unfold andT; split <;> first | (simp only [*]; done) | (simp only [*]; rfl))
    (hy : y' = andS y g := by unfold andS; split <;> first | (simp only [*]; done) | (simp only [*]; rfl)) : Agree env d name w0 t x' y' := by
  rw [hx, hy]
  exact h.bind0 hf

theorem Agree.pure {α : Type} (h : Inv env name w0 t) (r : Except PyErr α) :
    Agree env d name w0 t (r, t) (r, t.s) :=
  ⟨h, id, fun _ => ⟨rfl, rfl⟩, fun h1 h2 => by simp [h1] at h2, fun _ => rfl⟩

/-- A change of the state that writes nothing. -/
theorem Agree.to {α : Type} {t' : T} (h : Inv env name w0 t') (hf : t'.failed = t.failed) {r : Except PyErr α} {s : S}
    (hs : t'.s = s) : Agree env d name w0 t (r, t') (r, s) :=
  ⟨h, fun q => hf.trans q, fun _ => ⟨rfl, hs⟩, fun h1 h2 => (by rw [show (r, t').2.failed = t'.failed from rfl, hf, h1] at h2; cases h2), fun _ => hf⟩

/-- A step that writes nothing before a call. -/
theorem Agree.after {α : Type} {t' : T} (hf : t'.failed = t.failed) {x : Except PyErr α × T} {y : Except PyErr α × S}
    (h : Agree env d name w0 t' x y) : Agree env d name w0 t x y :=
  ⟨h.inv, fun q => h.mono (hf.trans q), h.same, fun q => h.err (hf.trans q), fun q => (h.fine q).trans hf⟩

/-! ### Invariants -/

theorem Left.hashed {w : World} (h : Left env name w0 w) {b : Bytes} (hb : b.length ≤ env.cs) :
    Left env name w0 { w with log := b :: w.log } := by
  refine ⟨h.old, fun x y hy => ?_, h.metas, fun x hx => List.mem_cons_of_mem _ (h.log hx), ?_, h.force⟩
  · rcases h.new x y hy with q | ⟨d, q1, q2, q3, q4⟩
    · exact .inl q
    · exact .inr ⟨d, q1, q2, List.mem_cons_of_mem _ q3, q4⟩
  · intro d hd
    rcases List.mem_cons.1 hd with rfl | hd
    · exact .inr hb
    · exact h.small d hd

theorem Left.put {w : World} (h : Left env name w0 w) {b : Bytes} (hb : b.length ≤ env.cs) (hl : b ∈ w.log)
    (hn : w.chunks.has (env.H b) = false) : Left env name w0 { w with chunks := w.chunks.set (env.H b) (some b) } := by
  refine ⟨fun x y hy => ?_, fun x y hy => ?_, h.metas, h.log, h.small, h.force⟩
  · show Dict.get? (Dict.set _ _ _) x = _
    rw [Dict.get?_set]
    split
    · rename_i he
      subst he
      have := h.old _ _ hy
      simp [Dict.has, this] at hn
    · exact h.old x y hy
  · have hy : Dict.get? (Dict.set w.chunks (env.H b) (some b)) x = some y := hy
    rw [Dict.get?_set] at hy
    split at hy
    · rename_i he
      cases hy
      exact .inr ⟨b, rfl, he.symm, hl, hb⟩
    · exact h.new x y hy

theorem Inv.setChunk (h : Inv env name w0 t) (id : Nat) {c : Chunk} (hc : Fine env c) : Inv env name w0 (t.setChunk id c) := by
  refine ⟨h.named, h.left, fun p hp => ?_⟩
  rcases Dict.mem_set hp with rfl | hp
  · exact hc
  · exact h.fine p hp

theorem Inv.setMapping (h : Inv env name w0 t) (id : Nat) (x : Hash) : Inv env name w0 (t.setMapping id x) :=
  ⟨h.named, h.left, h.fine⟩

theorem Inv.fineOf (h : Inv env name w0 t) {id : Nat} {c : Chunk} (hc : t.s.f.chunks.get? id = some c) : Fine env c :=
  h.fine (id, c) (Dict.mem_of_get? hc)

theorem Fine.new (x : Option Hash) : Fine env (Chunk.new x) :=
  ⟨fun d hd => by simp [Chunk.new] at hd, fun h => by simp [Chunk.new] at h⟩

theorem Left.read {w : World} (h : Left env name w0 w) (hs : Short env w0) : Short env w := by
  intro x b hx hb
  rcases h.new x _ hx with q | ⟨d, q1, _, _, q4⟩
  · exact hs x b q hb
  · cases q1; exact q4

theorem Fine.readExisting {c c' : Chunk} {w : World} (hs : Short env w) (hc : Fine env c)
    (h : c.readExisting env w = .ok c') : Fine env c' ∧ ∃ b, c'.data = some b := by
  unfold Chunk.readExisting at h
  cases hd : c.data with
  | some b =>
    simp only [hd, Except.ok.injEq] at h
    subst h
    exact ⟨hc, b, hd⟩
  | none =>
    simp only [hd] at h
    cases hh : c.hash with
    | none =>
      simp only [hh, Except.ok.injEq] at h
      subst h
      exact ⟨⟨fun d hd => by simp only [Option.some.injEq] at hd; subst hd; simp, fun _ => ⟨_, rfl⟩⟩, _, rfl⟩
    | some x =>
      simp only [hh] at h
      cases hg : w.chunks.get? x with
      | none => simp [hg] at h
      | some y =>
        cases y with
        | none => simp [hg] at h
        | some b =>
          simp only [hg] at h
          split at h
          · rename_i hb
            cases h
            exact ⟨⟨fun d hd => by simp only [Option.some.injEq] at hd; subst hd; exact hs x _ hg hb, fun _ => ⟨_, rfl⟩⟩, _, rfl⟩
          · cases h

theorem Fine.write {c c' : Chunk} {w : World} (hs : Short env w) (hc : Fine env c) {off : Nat} (ho : off < env.cs)
    {data rest : Bytes} {n : Nat} (h : c.write env w off data = .ok (n, rest, c')) : Fine env c' := by
  simp only [Chunk.write] at h
  split at h
  · rename_i hf
    cases h
    exact ⟨fun d hd => by simp only [Option.some.injEq] at hd; subst hd; exact Nat.le_of_eq hf.2, fun _ => ⟨_, rfl⟩⟩
  · cases hr : c.readExisting env w with
    | error e => simp [hr] at h
    | ok c1 =>
      obtain ⟨h1, b, h2⟩ := hc.readExisting hs hr
      simp only [hr, h2] at h
      cases h
      refine ⟨fun d hd => ?_, fun _ => ⟨_, rfl⟩⟩
      simp only [Option.some.injEq] at hd
      subst hd
      have := h1.len b h2
      rw [writeAt_length]
      split
      · omega
      · simp only [List.length_take]; omega

/-! ### Flushing -/

/-- The directory after a chunk has been flushed. -/
def flushed (env : Env) (w : World) (b : Bytes) : World :=
  if env.H b ∈ w.seen then { w with log := b :: w.log }
  else { (if w.force = true ∨ w.chunks.has (env.H b) = false then
    { w with log := b :: w.log, chunks := w.chunks.set (env.H b) (some b) } else { w with log := b :: w.log }) with
      seen := env.H b :: w.seen }

theorem chunk_flush (w : World) {c : Chunk} {b : Bytes} (hc : c.clean = false) (hb : c.data = some b) :
    c.flush env w = .ok (some (env.H b), { c with hash := some (env.H b), clean := true }, flushed env w b) := by
  simp only [Chunk.flush, hc, hb, Bool.false_eq_true, if_false, flushed]
  by_cases h1 : env.H b ∈ w.seen
  · simp only [if_pos h1]
  · simp only [if_neg h1]
    by_cases h2 : w.force = true ∨ w.chunks.has (env.H b) = false
    · simp only [if_pos h2]
    · simp only [if_neg h2]

theorem storeChunk_spec (b : Bytes) (hb : b.length ≤ env.cs) (h : Inv env name w0 t) :
    Inv env name w0 (storeChunk d (env.H b) b (t.hashed b)).2 ∧
    (storeChunk d (env.H b) b (t.hashed b)).2.s.f = t.s.f ∧
    ((storeChunk d (env.H b) b (t.hashed b)).1 = .ok () ∧ (storeChunk d (env.H b) b (t.hashed b)).2.failed = t.failed ∧
      (storeChunk d (env.H b) b (t.hashed b)).2.s.w = flushed env t.s.w b ∨
     (storeChunk d (env.H b) b (t.hashed b)).1 = .error .os ∧ (storeChunk d (env.H b) b (t.hashed b)).2.failed = true ∧
      ∃ n, d n ≠ .done) := by
  have hsee : ∀ {t : T}, Inv env name w0 t → Inv env name w0 (t.see (env.H b)) := fun {t} h =>
    ⟨h.named, ⟨h.left.old, h.left.new, h.left.metas, h.left.log, h.left.small, h.left.force⟩, h.fine⟩
  have h0 : Inv env name w0 (t.hashed b) := ⟨h.named, h.left.hashed hb, h.fine⟩
  have hl : b ∈ (t.hashed b).s.w.log := List.mem_cons_self
  unfold storeChunk
  by_cases h1 : env.H b ∈ t.s.w.seen
  · rw [if_pos (show env.H b ∈ (t.hashed b).s.w.seen from h1)]
    exact ⟨h0, rfl, .inl ⟨rfl, rfl, by rw [flushed, if_pos h1]; rfl⟩⟩
  · rw [if_neg (show ¬ env.H b ∈ (t.hashed b).s.w.seen from h1)]
    by_cases h2 : t.s.w.force = true ∨ t.s.w.chunks.has (env.H b) = false
    · rw [if_pos (show (t.hashed b).s.w.force = true ∨ (t.hashed b).s.w.chunks.has (env.H b) = false from h2)]
      have h3 : t.s.w.chunks.has (env.H b) = false := by
        rcases h2 with q | q
        · rw [h.left.force] at q; cases q
        · exact q
      by_cases h4 : d (t.hashed b).n = .done
      · rw [if_pos h4]
        refine ⟨hsee (t := (t.hashed b).putChunk (env.H b) b) ⟨h0.named, h0.left.put hb hl h3, h0.fine⟩, rfl, .inl ⟨rfl, rfl, ?_⟩⟩
        rw [flushed, if_neg h1, if_pos h2]; rfl
      · rw [if_neg h4]
        exact ⟨⟨h0.named, h0.left, h0.fine⟩, rfl, .inr ⟨rfl, rfl, _, h4⟩⟩
    · rw [if_neg (show ¬ ((t.hashed b).s.w.force = true ∨ (t.hashed b).s.w.chunks.has (env.H b) = false) from h2)]
      refine ⟨hsee h0, rfl, .inl ⟨rfl, rfl, ?_⟩⟩
      rw [flushed, if_neg h1, if_neg h2]; rfl

/-- The same file except for the chunk objects. -/
def But (f g : File) : Prop := ∃ ch, f = { g with chunks := ch }

theorem flushList_spec (l : List (Nat × Chunk)) : ∀ {t : T} {s : S}, Inv env name w0 t → (∀ p ∈ l, Fine env p.2) →
    t.s.w = s.w → But t.s.f s.f →
    Inv env name w0 (flushList env d l t).2 ∧
    ((flushList env d l t).1 = .ok () ∧ (flushList env d l t).2.failed = t.failed ∧
      (Chunked.flushList env l s).1 = .ok () ∧ (flushList env d l t).2.s.w = (Chunked.flushList env l s).2.w ∧
      But (flushList env d l t).2.s.f (Chunked.flushList env l s).2.f ∨
     (flushList env d l t).1 = .error .os ∧ (flushList env d l t).2.failed = true ∧ ∃ n, d n ≠ .done) := by
  induction l with
  | nil => intro t s h _ hw hf; exact ⟨h, .inl ⟨rfl, rfl, rfl, hw, hf⟩⟩
  | cons a l ih =>
    intro t s h hl hw hf
    obtain ⟨id, c⟩ := a
    have hc : Fine env c := hl (id, c) List.mem_cons_self
    have hl' : ∀ p ∈ l, Fine env p.2 := fun p hp => hl p (List.mem_cons_of_mem _ hp)
    simp only [flushList, Chunked.flushList, flushChunk]
    cases hcl : c.clean with
    | true =>
      simp only [if_true, Chunk.flush, hcl]
      exact ih h hl' hw hf
    | false =>
      obtain ⟨b, hb⟩ := hc.data hcl
      rw [chunk_flush s.w hcl hb]
      simp only [hb, Bool.false_eq_true, if_false]
      have hbl := hc.len b hb
      obtain ⟨i1, i2, i3⟩ := storeChunk_spec (d := d) b hbl h
      generalize storeChunk d (env.H b) b (t.hashed b) = x at *
      obtain ⟨x1, x2⟩ := x
      dsimp only at i1 i2 i3
      rcases i3 with ⟨rfl, q2, q3⟩ | ⟨rfl, q2, q3⟩
      · dsimp only
        have hfine : Fine env { c with hash := some (env.H b), clean := true } :=
          ⟨fun d' hd' => hc.len d' hd', fun q => by cases q⟩
        have := ih (t := (x2.setChunk id { c with hash := some (env.H b), clean := true }).setMapping id (env.H b))
          (s := ⟨{ s.f with mapping := s.f.mapping.set id (env.H b) }, flushed env s.w b⟩)
          ((i1.setChunk id hfine).setMapping id _) hl' (by rw [← hw]; exact q3) (by
            obtain ⟨ch, hch⟩ := hf
            refine ⟨x2.s.f.chunks.set id { c with hash := some (env.H b), clean := true }, ?_⟩
            have e1 : x2.s.f.mapping = s.f.mapping := by rw [i2, hch]
            have e2 : ({ x2.s.f with chunks := ch } : File) = t.s.f := by rw [i2, hch]
            rw [hch] at i2
            simp only [T.setMapping, T.setChunk, i2])
        rw [show ((x2.setChunk id { c with hash := some (env.H b), clean := true }).setMapping id (env.H b)).failed = t.failed
          from q2] at this
        simp only [hb] at this
        exact this
      · dsimp only
        have hfine : Fine env { c with hash := some (env.H b) } :=
          ⟨fun d' hd' => hc.len d' hd', fun _ => ⟨b, hb⟩⟩
        have := i1.setChunk id hfine
        simp only [hb, hcl] at this
        exact ⟨this, .inr ⟨rfl, q2, q3⟩⟩

theorem flushChunks_agree (target : Nat) (h : Inv env name w0 t) :
    Agree env d name w0 t (flushChunks env d target t) (t.s.flushChunks env target) := by
  simp only [flushChunks, S.flushChunks]
  split
  · exact .pure h _
  · have hmem : ∀ p ∈ t.s.f.sortedChunks, Fine env p.2 := fun p hp => h.fine p ((sortBy_perm _ _).mem_iff.1 hp)
    obtain ⟨i1, i2⟩ := flushList_spec (d := d) (t.s.f.sortedChunks.drop target) h (fun p hp => hmem p (List.mem_of_mem_drop hp))
      (s := t.s) rfl ⟨_, rfl⟩
    generalize flushList env d (t.s.f.sortedChunks.drop target) t = x at *
    generalize Chunked.flushList env (t.s.f.sortedChunks.drop target) t.s = y at *
    obtain ⟨x1, x2⟩ := x
    obtain ⟨y1, y2⟩ := y
    dsimp only at i1 i2
    rcases i2 with ⟨rfl, q2, rfl, q4, ch, q5⟩ | ⟨rfl, q2, n, q3⟩
    · refine ⟨⟨i1.named, i1.left, fun p hp => hmem p (List.mem_of_mem_take hp)⟩, fun q => q2.trans q, fun _ => ⟨rfl, ?_⟩, ?_,
        fun _ => q2⟩
      · show (⟨{ x2.s.f with chunks := _ }, x2.s.w⟩ : S) = ⟨_, _⟩
        rw [q4, q5]
      · intro p1 p2
        rw [show (x2.keep (t.s.f.sortedChunks.take target)).failed = x2.failed from rfl, q2, p1] at p2
        cases p2
    · exact ⟨i1, fun _ => q2, fun p => (by rw [show _ = x2.failed from rfl, q2] at p; cases p),
        fun _ _ => ⟨.os, by simp, rfl⟩, fun p => absurd (p n) q3⟩

theorem writeMapping_agree (h : Inv env name w0 t) :
    Agree env d name w0 t (writeMapping d t) (.ok (), { t.s with w := { t.s.w with
        metas := t.s.w.metas.set t.s.f.name (some ⟨t.s.f.mapping, t.s.f.size⟩) } }) := by
  have hinv : ∀ m n b, Inv env name w0 { t.putMapping m with n := n, failed := b } := by
    intro m n b
    refine ⟨h.named, ⟨h.left.old, h.left.new, fun x hx => ?_, h.left.log, h.left.small, h.left.force⟩, h.fine⟩
    show Dict.get? (Dict.set t.s.w.metas t.s.f.name _) x = _
    rw [Dict.get?_set, if_neg (by rw [h.named]; exact hx)]
    exact h.left.metas x hx
  unfold writeMapping
  cases hd : d t.n with
  | done => exact ⟨hinv _ _ _, id, fun _ => ⟨rfl, rfl⟩, fun p q => by simp [T.putMapping, p] at q, fun _ => rfl⟩
  | failed =>
    exact ⟨hinv _ _ _, fun _ => rfl, fun p => by simp [T.fail] at p, fun _ _ => ⟨.os, by simp, rfl⟩,
      fun p => absurd (p t.n) (by simp [hd])⟩
  | late =>
    exact ⟨hinv _ _ _, fun _ => rfl, fun p => by simp [T.fail] at p, fun _ _ => ⟨.os, by simp, rfl⟩,
      fun p => absurd (p t.n) (by simp [hd])⟩

theorem flush_agree (h : Inv env name w0 t) : Agree env d name w0 t (flush env d t) (t.s.flush env) := by
  simp only [flush, S.flush]
  split
  · exact .pure h _
  · exact (flushChunks_agree 0 h).bind (f := fun _ t => writeMapping d t) (g := fun _ s => (.ok (), { s with w := { s.w with
        metas := s.w.metas.set s.f.name (some ⟨s.f.mapping, s.f.size⟩) } }))
      (fun _ t' _ h' => writeMapping_agree h')

theorem Inv.close (h : Inv env name w0 t) : Inv env name w0 t.close := ⟨h.named, h.left, h.fine⟩

theorem close_agree (h : Inv env name w0 t) : Agree env d name w0 t (close env d t) (t.s.close env) := by
  simp only [FullDisk.close, S.close]
  split
  · exact .pure h _
  · split
    · exact (flush_agree h).bind (f := fun _ t => (.ok (), t.close))
        (g := fun _ s => (.ok (), { s with f := { s.f with closed := true } }))
        (fun _ t' _ h' => .to h'.close (by rfl) (by rfl))
    · exact .to h.close (by rfl) (by rfl)

/-! ### Writing -/

theorem Inv.touch (h : Inv env name w0 t) (id : Nat) : Inv env name w0 (t.touch env id) :=
  ⟨h.named, ⟨h.left.old, h.left.new, h.left.metas, h.left.log, h.left.small, h.left.force⟩, h.fine⟩

theorem currentChunk_agree (h : Inv env name w0 t) :
    Agree env d name w0 t (currentChunk env d t) (t.s.currentChunk env) := by
  have he : Agree env d name w0 t (ensureChunk env d (t.s.f.pos / env.cs) t)
      (if t.s.f.chunks.has (t.s.f.pos / env.cs) = true then (.ok (), t.s)
      else
        match t.s.flushChunks env flushTarget with
        | (.error e, s) => (.error e, s)
        | (.ok (), s) =>
          (.ok (), { s with f := { s.f with
            chunks := s.f.chunks.set (t.s.f.pos / env.cs) (Chunk.new (s.f.mapping.get? (t.s.f.pos / env.cs))) } })) := by
    unfold ensureChunk
    split
    · exact .pure h _
    · exact (flushChunks_agree flushTarget h).bind
        (f := fun _ t'' => (.ok (), t''.setChunk (t.s.f.pos / env.cs) (Chunk.new (t''.s.f.mapping.get? (t.s.f.pos / env.cs)))))
        (g := fun _ s => (.ok (), { s with f := { s.f with
            chunks := s.f.chunks.set (t.s.f.pos / env.cs) (Chunk.new (s.f.mapping.get? (t.s.f.pos / env.cs))) } }))
        (fun _ t' _ h' => .to (h'.setChunk _ (.new _)) (by rfl) (by rfl))
  exact he.bind (f := fun _ t' => (.ok (t.s.f.pos / env.cs, t.s.f.pos % env.cs), t'.touch env (t.s.f.pos / env.cs)))
      (g := fun _ s => (.ok (t.s.f.pos / env.cs, t.s.f.pos % env.cs),
      { f := { s.f with stats := s.f.stats.set (t.s.f.pos / env.cs) ((s.f.stat (t.s.f.pos / env.cs)).1 + 1, env.now s.w.tick) },
        w := { s.w with tick := s.w.tick + 1 } })) (fun _ t' _ h' => .to (h'.touch _) (by rfl) (by rfl))
      (by
        simp only [currentChunk]
        generalize ensureChunk env d (t.s.f.pos / env.cs) t = x
        obtain ⟨x1, x2⟩ := x
        cases x1 <;> rfl)
      (by
        simp only [S.currentChunk]
        generalize (if t.s.f.chunks.has (t.s.f.pos / env.cs) = true then ((.ok (), t.s) : Except PyErr Unit × S) else _) = x
        obtain ⟨x1, x2⟩ := x
        cases x1 <;> rfl)

theorem Inv.afterWrite (h : Inv env name w0 t) (id : Nat) {c : Chunk} (hc : Fine env c) (k : Nat) :
    Inv env name w0 (t.afterWrite id c k) := by
  refine ⟨h.named, h.left, fun p hp => ?_⟩
  rcases Dict.mem_set hp with rfl | hp
  · exact hc
  · exact h.fine p hp

theorem currentChunk_offset {id off : Nat} {t' : T} (h : currentChunk env d t = (.ok (id, off), t')) : off < env.cs := by
  simp only [currentChunk] at h
  generalize ensureChunk env d (t.s.f.pos / env.cs) t = x at h
  obtain ⟨x1, x2⟩ := x
  cases x1 with
  | error e => cases h
  | ok u =>
    cases h
    exact Nat.mod_lt _ env.cs_pos

theorem writeLoop_agree (hs : Short env w0) (n : Nat) : ∀ {t : T} (data : Bytes), data.length = n → Inv env name w0 t →
    Agree env d name w0 t (writeLoop env d t data) (t.s.writeLoop env data) := by
  induction n using Nat.strongRecOn with
  | ind n ih =>
    intro t data hn h
    unfold writeLoop S.writeLoop
    by_cases hz : data = []
    · rw [if_pos hz, if_pos hz]
      exact .pure h _
    · rw [if_neg hz, if_neg hz]
      refine (currentChunk_agree h).bind (f := fun p t => match t.s.f.chunks.get? p.1 with
        | none => (.error .key, t)
        | some c =>
          match c.write env t.s.w p.2 data with
          | .error e => (.error e, t)
          | .ok (written, rest, c) =>
            if _hr : rest.length < data.length then writeLoop env d (t.afterWrite p.1 c written) rest
            else (.error .diverge, t)) (g := fun p s => match s.f.chunks.get? p.1 with
        | none => (.error .key, s)
        | some c =>
          match c.write env s.w p.2 data with
          | .error e => (.error e, s)
          | .ok (written, rest, c) =>
            if _hr : rest.length < data.length then
              S.writeLoop env { s with f := { s.f with
                chunks := s.f.chunks.set p.1 c, pos := s.f.pos + written, size := max s.f.size (s.f.pos + written) } } rest
            else (.error .diverge, s)) ?_
      rintro ⟨id, off⟩ t' hx h'
      have hoff := currentChunk_offset hx
      dsimp only
      cases hg : t'.s.f.chunks.get? id with
      | none => exact .pure h' _
      | some c =>
        dsimp only
        cases hc : c.write env t'.s.w off data with
        | error e => exact .pure h' _
        | ok r =>
          obtain ⟨written, rest, c'⟩ := r
          dsimp only
          by_cases hr : rest.length < data.length
          · rw [dif_pos hr, dif_pos hr]
            have hc' := (h'.fineOf hg).write (h'.left.read hs) hoff hc
            exact (ih rest.length (hn ▸ hr) rest rfl (h'.afterWrite id hc' written)).after (by rfl)
          · rw [dif_neg hr, dif_neg hr]
            exact .pure h' _

theorem write_agree (hs : Short env w0) (data : Bytes) (h : Inv env name w0 t) :
    Agree env d name w0 t (write env d data t) (t.s.write env data) := by
  simp only [write, S.write]
  split
  · exact .pure h _
  · exact writeLoop_agree hs _ data rfl h

theorem fill_agree (hs : Short env w0) (n : Nat) : ∀ {t : T}, Inv env name w0 t →
    Agree env d name w0 t (fill env d t n) (t.s.fill env n) := by
  induction n using Nat.strongRecOn with
  | ind n ih =>
    intro t h
    unfold fill S.fill
    by_cases hz : n = 0
    · rw [dif_pos hz, dif_pos hz]
      exact .pure h _
    · rw [dif_neg hz, dif_neg hz]
      exact (write_agree hs (zeros (min n env.blk)) h).bind (f := fun _ t => fill env d t (n - min n env.blk))
        (g := fun _ s => S.fill env s (n - min n env.blk))
        (fun _ t' _ h' => ih _ (by have := env.blk_pos; omega) h')

theorem Inv.at_ (h : Inv env name w0 t) (p : Nat) : Inv env name w0 (t.at_ p) := ⟨h.named, h.left, h.fine⟩

theorem seek_agree (hs : Short env w0) (o : Int) (wh : Whence) (h : Inv env name w0 t) :
    Agree env d name w0 t (seek env d o wh t) (t.s.seek env o wh) := by
  simp only [seek, S.seek]
  by_cases hc : t.s.f.closed = true
  · rw [if_pos hc, if_pos hc]
    exact .pure h _
  · rw [if_neg hc, if_neg hc]
    cases hp : t.s.f.seekTarget o wh with
    | error e => exact .pure h _
    | ok position =>
      dsimp only
      by_cases hz : position < 0
      · rw [if_pos hz, if_pos hz]
        exact .pure h _
      · rw [if_neg hz, if_neg hz]
        by_cases hg : position.toNat > t.s.f.size
        · rw [if_pos hg, if_pos hg]
          refine ((fill_agree hs (position.toNat - t.s.f.size) (h.at_ t.s.f.size)).after (by rfl)).bind
            (f := fun _ t => if t.s.f.pos = position.toNat ∧ t.s.f.size = position.toNat then (.ok position.toNat, t)
              else (.error .assertion, t))
            (g := fun _ s => if s.f.pos = position.toNat ∧ s.f.size = position.toNat then (.ok position.toNat, s)
              else (.error .assertion, s)) ?_ ?_ ?_
          · intro _ t' _ h'
            split
            · exact .pure h' _
            · exact .pure h' _
          · generalize fill env d (t.at_ t.s.f.size) (position.toNat - t.s.f.size) = x
            obtain ⟨x1, x2⟩ := x
            cases x1 <;> rfl
          · rw [show ({ t.s with f := { t.s.f with pos := t.s.f.size } } : S) = (t.at_ t.s.f.size).s from rfl]
            generalize S.fill env (t.at_ t.s.f.size).s (position.toNat - t.s.f.size) = x
            obtain ⟨x1, x2⟩ := x
            cases x1 <;> rfl
        · rw [if_neg hg, if_neg hg]
          exact .to (h.at_ _) (by rfl) (by rfl)

theorem truncate_agree (sz : Option Nat) (h : Inv env name w0 t) :
    Agree env d name w0 t (truncate env d sz t) (t.s.truncate env sz) := by
  simp only [truncate, S.truncate]
  split
  · exact .pure h _
  · exact (flush_agree (t := t.cut env (sz.getD t.s.f.pos)) ⟨h.named, h.left, h.fine⟩).after (by rfl)

/-- The call as an operation of `File`. -/
def Call.op : Call → Op
  | .seek o => .seek o .set
  | .write b => .write b
  | .truncate => .truncate

theorem call_agree (hs : Short env w0) (c : Call) (h : Inv env name w0 t) :
    Agree env d name w0 t (call env d t c)
      ((match (t.s.step env c.op).2 with
        | .error e => .error e
        | .ok _ => .ok ()), (t.s.step env c.op).1) := by
  cases c with
  | seek o =>
    refine (seek_agree hs o .set h).bind (f := fun _ t => (.ok (), t)) (g := fun _ s => (.ok (), s))
      (fun _ t' _ h' => .pure h' _) ?_ ?_
    · simp only [call]
      generalize seek env d o .set t = x
      obtain ⟨x1, x2⟩ := x
      cases x1 <;> rfl
    · simp only [Call.op, S.step, outOf]
      generalize S.seek env o .set t.s = x
      obtain ⟨x1, x2⟩ := x
      cases x1 <;> rfl
  | write b =>
    have h1 := write_agree (d := d) hs b h
    simp only [call, Call.op, S.step, outOf]
    generalize S.write env b t.s = x at *
    obtain ⟨x1, x2⟩ := x
    cases x1 <;> exact h1
  | truncate =>
    have h1 := truncate_agree (d := d) none h
    simp only [call, Call.op, S.step, outOf]
    generalize S.truncate env none t.s = x at *
    obtain ⟨x1, x2⟩ := x
    cases x1 <;> exact h1

theorem exec_agree (hs : Short env w0) (l : List Call) : ∀ {t : T}, Inv env name w0 t →
    Agree env d name w0 t (exec env d l t) (Diff.exec env (l.map Call.op) t.s) := by
  induction l with
  | nil => intro t h; exact .pure h _
  | cons c l ih =>
    intro t h
    refine (call_agree hs c h).bind (f := fun _ t => exec env d l t) (g := fun _ s => Diff.exec env (l.map Call.op) s)
      (fun _ t' _ h' => ih h') ?_ ?_
    · simp only [exec]
      generalize call env d t c = x
      obtain ⟨x1, x2⟩ := x
      cases x1 <;> rfl
    · simp only [List.map_cons, Diff.exec]
      generalize S.step env t.s c.op = x
      obtain ⟨x1, x2⟩ := x
      cases x2 <;> rfl

theorem punchHole_agree (hs : Short env w0) (o n : Nat) (h : Inv env name w0 t) :
    Agree env d name w0 t (punchHole env d o n t) (Diff.punchHole env o n t.s) := by
  simp only [punchHole, Diff.punchHole]
  split
  · exact .pure h _
  · exact exec_agree hs _ h

theorem applyRec_agree (hs : Short env w0) (a b : Bytes) (r : Rec) (h : Inv env name w0 t) :
    Agree env d name w0 t (applyRec env d a b t r) (Diff.applyRec env a b t.s r) := by
  cases r with
  | size n => exact exec_agree hs [.seek n, .truncate] h
  | fromSnap x => simp only [applyRec, Diff.applyRec]; split <;> exact .pure h _
  | toSnap x => simp only [applyRec, Diff.applyRec]; split <;> exact .pure h _
  | data start l chunks =>
    have := exec_agree (d := d) hs (.seek start :: chunks.map .write) h
    rw [List.map_cons, List.map_map] at this
    exact this
  | zero start length =>
    refine (exec_agree hs [.seek start] h).bind (f := fun _ t => punchHole env d t.s.f.pos length t)
      (g := fun _ s => Diff.punchHole env s.f.pos length s) (fun _ t' _ h' => punchHole_agree hs _ _ h') ?_ ?_
    · simp only [applyRec]
      generalize exec env d [.seek start] t = x
      obtain ⟨x1, x2⟩ := x
      cases x1 <;> rfl
    · simp only [Diff.applyRec]
      show _ = andS (Diff.exec env [.seek start .set] t.s) _
      generalize Diff.exec env [.seek start .set] t.s = x
      obtain ⟨x1, x2⟩ := x
      cases x1 <;> rfl

theorem applyRecs_agree (hs : Short env w0) (a b : Bytes) (l : List Rec) : ∀ {t : T}, Inv env name w0 t →
    Agree env d name w0 t (applyRecs env d a b l t) (Diff.applyRecs env a b l t.s) := by
  induction l with
  | nil => intro t h; exact .pure h _
  | cons r l ih =>
    intro t h
    refine (applyRec_agree hs a b r h).bind (f := fun _ t => applyRecs env d a b l t) (g := fun _ s => Diff.applyRecs env a b l s)
      (fun _ t' _ h' => ih h') ?_ ?_
    · simp only [applyRecs]
      generalize applyRec env d a b t r = x
      obtain ⟨x1, x2⟩ := x
      cases x1 <;> rfl
    · simp only [Diff.applyRecs]
      generalize Diff.applyRec env a b t.s r = x
      obtain ⟨x1, x2⟩ := x
      cases x1 <;> rfl

theorem integrate_agree (hs : Short env w0) (stream a b : Bytes) (h : Inv env name w0 t) :
    Agree env d name w0 t (integrate env d stream a b t) (Diff.integrate env stream a b t.s) := by
  refine (applyRecs_agree hs a b (decode env stream).1 h).bind
    (f := fun _ t => match (decode env stream).2 with
      | some e => (.error e, t)
      | none => (.ok (), t))
    (g := fun _ s => match (decode env stream).2 with
      | some e => (.error e, s)
      | none => (.ok (), s)) ?_ ?_ ?_
  · intro _ t' _ h'
    split <;> exact .pure h' _
  · simp only [integrate]
    generalize applyRecs env d a b (decode env stream).1 t = x
    obtain ⟨x1, x2⟩ := x
    cases x1 <;> rfl
  · simp only [Diff.integrate]
    generalize Diff.applyRecs env a b (decode env stream).1 t.s = x
    obtain ⟨x1, x2⟩ := x
    cases x1 <;> rfl

theorem transfer_agree (hs : Short env w0) (o : Rbd) (uuid : String) (parent : Option Rev) (h : Inv env name w0 t) :
    Agree env d name w0 t (transfer env d o uuid parent t) (Backup.transfer env o uuid parent t.s) := by
  cases parent with
  | some p => exact integrate_agree hs _ _ _ h
  | none =>
    have := exec_agree (d := d) hs ((streamChunks env.blk env.blk_pos o.exportOut.length o.exportOut).1.map .write) h
    rw [List.map_map] at this
    exact this

/-! ### The end of the writing -/

theorem close_error (h : Inv env name w0 t) : (close env d t).1 ≠ .error .backend := by
  have hfl : (flushChunks env d 0 t).1 ≠ .error .backend := by
    simp only [flushChunks]
    split
    · simp
    · have hmem : ∀ p ∈ t.s.f.sortedChunks, Fine env p.2 := fun p hp => h.fine p ((sortBy_perm _ _).mem_iff.1 hp)
      obtain ⟨_, i2⟩ := flushList_spec (d := d) (t.s.f.sortedChunks.drop 0) h (fun p hp => hmem p (List.mem_of_mem_drop hp))
        (s := t.s) rfl ⟨_, rfl⟩
      generalize flushList env d (t.s.f.sortedChunks.drop 0) t = x at *
      obtain ⟨x1, x2⟩ := x
      dsimp only at i2
      rcases i2 with ⟨rfl, _⟩ | ⟨rfl, _⟩ <;> simp
  have hf : (flush env d t).1 ≠ .error .backend := by
    simp only [flush]
    split
    · simp
    · generalize flushChunks env d 0 t = x at *
      obtain ⟨x1, x2⟩ := x
      cases x1 with
      | error e => exact hfl
      | ok u =>
        simp only [writeMapping]
        split <;> simp
  simp only [FullDisk.close]
  split
  · simp
  · split
    · generalize flush env d t = x at *
      obtain ⟨x1, x2⟩ := x
      cases x1 with
      | error e => exact hf
      | ok u => simp
    · simp

/-- The end of a phase on a disk that may be full, and the same on a disk with room. -/
structure Ended (env : Env) (d : Drive) (name : String) (w0 : World) {α : Type} (x : Except PyErr α × Written)
    (y : Except PyErr α × World) : Prop where
  left : Left env name w0 x.2.w
  same : x.2.failed = false → x.1 = y.1 ∧ x.2.w = y.2
  err : x.2.failed = true → ∃ e, e ≠ .backend ∧ x.1 = .error e
  fine : (∀ n, d n = .done) → x.2.failed = false

theorem closing_ended {x : Except PyErr Unit × T} {y : Except PyErr Unit × S} (ht : t.failed = false)
    (h : Agree env d name w0 t x y) : Ended env d name w0 (closing env d x) (Backup.closing env y) := by
  have hc := close_agree (d := d) h.inv
  have he := close_error (d := d) h.inv
  simp only [closing, Backup.closing]
  obtain ⟨x1, x2⟩ := x
  obtain ⟨y1, y2⟩ := y
  obtain ⟨inv, mono, same, err, fine⟩ := h
  dsimp only at *
  generalize close env d x2 = c at *
  obtain ⟨c1, c2⟩ := c
  have hsame : c2.failed = false → x1 = y1 ∧ (c1, c2.s) = y2.close env := by
    intro hf
    have hx : x2.failed = false := by
      by_contra hne
      have := hc.mono (by simpa using hne)
      rw [show c2.failed = true from this] at hf
      cases hf
    obtain ⟨e1, e2⟩ := same hx
    subst e2
    obtain ⟨e3, e4⟩ := hc.same hf
    exact ⟨e1, Prod.ext e3 e4⟩
  have hfine : (∀ n, d n = .done) → c2.failed = false := fun hd => (hc.fine hd).trans ((fine hd).trans ht)
  cases c1 with
  | error e =>
    refine ⟨hc.inv.left, fun hf => ?_, fun _ => ⟨e, fun hh => he (by rw [hh]), rfl⟩, hfine⟩
    obtain ⟨_, q⟩ := hsame hf
    rw [← q]
    exact ⟨rfl, rfl⟩
  | ok u =>
    refine ⟨hc.inv.left, fun hf => ?_, fun hf => ?_, hfine⟩
    · obtain ⟨q1, q⟩ := hsame hf
      rw [← q]
      exact ⟨q1, rfl⟩
    · have hf : c2.failed = true := hf
      cases hx : x2.failed with
      | true => exact err ht hx
      | false =>
        obtain ⟨e, _, q⟩ := hc.err hx hf
        cases q

theorem Left.refl {w : World} (h : w.force = false) : Left env name w w :=
  ⟨fun _ _ h => h, fun _ _ h => .inl h, fun _ _ => rfl, fun _ h => h, fun _ h => .inl h, h⟩

theorem Left.meta {w : World} (h : w.force = false) (m : Option Meta) :
    Left env name w { w with metas := w.metas.set name m } := by
  refine ⟨fun _ _ h => h, fun _ _ h => .inl h, fun n hn => ?_, fun _ h => h, fun _ h => .inl h, h⟩
  show Dict.get? (Dict.set _ _ _) n = _
  rw [Dict.get?_set, if_neg hn]

theorem copyFails_spec {w v : World} {uuid : String} {parent : Option Rev} (h : copyFails d w uuid parent = some v) :
    (∃ m, v = { w with metas := w.metas.set uuid m }) ∧ ∃ n, d n ≠ .done := by
  simp only [copyFails] at h
  split at h
  · cases h
  · split at h
    · cases h
    · split at h
      · cases h
      · split at h
        · cases h
        · rename_i hd
          cases h
          exact ⟨⟨_, rfl⟩, 0, by rw [hd]; simp⟩
        · rename_i hd
          cases h
          exact ⟨⟨_, rfl⟩, 0, by rw [hd]; simp⟩

theorem copyParent_left {w v : World} {uuid : String} {parent : Option Rev} (hw : w.force = false)
    (h : copyParent w uuid parent = .ok v) : Left env uuid w v := by
  simp only [copyParent] at h
  split at h
  · cases h; exact .refl hw
  · split at h
    · cases h; exact .refl hw
    · split at h
      · cases h
      · cases h; exact .meta hw _

theorem open_inv {w v : World} {uuid : String} {mode : Mode} {f : S} (hv : Left env uuid w v) (h : File.open v uuid mode = .ok f) :
    Inv env uuid w ⟨f, 1, false⟩ := by
  simp only [File.open] at h
  split at h
  · split at h
    · cases h
    · cases h; exact ⟨rfl, hv, fun p hp => by cases hp⟩
  · cases h
  · cases h; exact ⟨rfl, hv, fun p hp => by cases hp⟩

theorem writePhase_ended (o : Rbd) (uuid : String) (parent : Option Rev) (s : Src) (hw : s.w.force = false)
    (hs : Short env s.w) :
    Ended env d uuid s.w (writePhase env d o uuid parent s) (Backup.writePhase env o uuid parent s) := by
  simp only [writePhase]
  cases hc : copyFails d s.w uuid parent with
  | some v =>
    obtain ⟨⟨m, rfl⟩, n, hn⟩ := copyFails_spec hc
    exact ⟨.meta hw m, fun h => (by cases h), fun _ => ⟨.os, (by simp), rfl⟩, fun h => absurd (h n) hn⟩
  | none =>
    simp only [Backup.writePhase, openWrite]
    cases hp : copyParent s.w uuid parent with
    | error e => exact ⟨.meta hw _, fun _ => ⟨rfl, rfl⟩, fun h => (by cases h), fun _ => rfl⟩
    | ok v =>
      have hv := copyParent_left (env := env) hw hp
      dsimp only
      cases hf : File.open v uuid wb with
      | error e => exact ⟨hv, fun _ => ⟨rfl, rfl⟩, fun h => (by cases h), fun _ => rfl⟩
      | ok f =>
        dsimp only
        have hcd : containsDistrusted s.repo = false := by
          simp [containsDistrusted, revEqTrust]
        simp only [hcd, Bool.false_eq_true, if_false]
        exact closing_ended rfl (transfer_agree (t := ⟨f, 1, false⟩) hs o uuid parent (open_inv hv hf))

theorem backupBody_ended (af : Bool) (o : Rbd) (r : Rev) (snap : Bytes) (s : Sys) (hw : s.src.w.force = false)
    (hs : Short env s.src.w) :
    ((backupBody env d af o r snap s).2.failed = false →
      ((backupBody env d af o r snap s).1, (backupBody env d af o r snap s).2.w) = Backup.backupBody env af o r snap s) ∧
    ((backupBody env d af o r snap s).2.failed = true →
      Left env r.uuid s.src.w (backupBody env d af o r snap s).2.w ∧
      (∃ e, e ≠ .backend ∧ (backupBody env d af o r snap s).1 = .error e) ∧
      ∃ parent, cephGetParent af s.ceph.snaps o.infoFails s.src.repo r = .ok parent) ∧
    ((∀ n, d n = .done) → (backupBody env d af o r snap s).2.failed = false) := by
  simp only [backupBody, Backup.backupBody]
  cases hp : cephGetParent af s.ceph.snaps o.infoFails s.src.repo r with
  | error e => dsimp only; exact ⟨fun _ => rfl, fun h => (by cases h), fun _ => rfl⟩
  | ok parent =>
    obtain ⟨left, same, err, fine⟩ := writePhase_ended (d := d) o r.uuid parent s.src hw hs
    dsimp only
    generalize writePhase env d o r.uuid parent s.src = x at *
    obtain ⟨x1, x2⟩ := x
    dsimp only at left same err fine
    cases x1 with
    | error e =>
      dsimp only
      refine ⟨fun h => ?_, fun h => ⟨left, (by obtain ⟨e1, q, q1⟩ := err h; cases q1; exact ⟨e, q, rfl⟩), parent, rfl⟩, fine⟩
      obtain ⟨q1, q2⟩ := same h
      generalize Backup.writePhase env o r.uuid parent s.src = y at *
      obtain ⟨y1, y2⟩ := y
      dsimp only at q1 q2
      subst q1 q2
      rfl
    | ok u =>
      refine ⟨fun h => ?_, fun h => ?_, fine⟩
      · obtain ⟨q1, q2⟩ := same h
        generalize Backup.writePhase env o r.uuid parent s.src = y at *
        obtain ⟨y1, y2⟩ := y
        dsimp only at q1 q2
        subst q1 q2
        rfl
      · obtain ⟨e, _, q⟩ := err h
        cases q

end

end Verif.FullDisk
