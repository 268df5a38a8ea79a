import Verif.Proofs.ChunkedReadOnly
import Verif.Props.Chunked
/-!
# Property C04: corrupt chunks are never served

Here the chunk store is *arbitrary*: chunk files may be missing, undecodable or have any content.
The only assumption is that a file whose content does hash to its name is not longer than a
chunk (the code never hashes longer contents).
-/
namespace Verif.Chunked
open Verif Verif.Spec

/-- Chunk `h` cannot be used: its file is missing, cannot be decompressed or has other content. -/
def Bad (env : Env) (w : World) (h : Hash) : Prop :=
  ¬ ∃ d, w.chunks.get? h = some (some d) ∧ env.H d = h

/-- The number of bytes a read returns when `avail` bytes are left. -/
def atMost : Option Nat → Nat → Nat
  | none, avail => avail
  | some n, avail => min n avail

theorem open_ro {env : Env} {w : World} {name : String} {mode : Mode} {mt : Meta} {s : S}
    (hm : w.metas.get? name = some (some mt)) (hmode : mode.w = false) (ha : mode.a = false)
    (ho : File.open w name mode = .ok s) : RO env w mt.mapping mt.size s := by
  unfold File.open at ho
  rw [hm] at ho
  cases ho
  refine ⟨rfl, rfl, rfl, rfl, ?_, hmode, ?_⟩
  · simp [ha]
  · intro id ch hx; simp at hx

/-- **C04** In any read-only session over an arbitrary (possibly damaged) store, if a read succeeds,
then it returns exactly the requested bytes (up to the end of the image) and every single one of
them comes from its place in a chunk file which hashes to the value recorded for that chunk.
Nothing on disk is changed. -/
theorem C04_reads_are_certified (env : Env) (w : World)
    (hsz : ∀ h d, w.chunks.get? h = some (some d) → env.H d = h → d.length ≤ env.cs)
    (name : String) (mode : Mode) (mt : Meta) (s : S)
    (hm : w.metas.get? name = some (some mt)) (hmode : mode.w = false) (ha : mode.a = false)
    (ho : File.open w name mode = .ok s) (ops : List Op) (n : Option Nat) (b : Bytes)
    (hr : ((s.run env ops).step env (.read n)).2 = .ok (.bytes b)) :
    b.length = atMost n (mt.size - (s.run env ops).f.pos) ∧
    (∀ i, i < b.length → ∃ h d,
      mt.mapping.get? (((s.run env ops).f.pos + i) / env.cs) = some h ∧
      w.chunks.get? h = some (some d) ∧ env.H d = h ∧
      d[((s.run env ops).f.pos + i) % env.cs]? = b[i]?) ∧
    (s.run env ops).w.chunks = w.chunks ∧ (s.run env ops).w.metas = w.metas := by
  have h := (open_ro hm hmode ha ho).run hsz ops (env := env)
  generalize s.run env ops = t at *
  refine ⟨?_, ?_, h.chunks, h.metas⟩ <;>
  · have hr' : (t.read env (readArg n)).1 = .ok b := by
      have hr2 : (outOf .bytes (t.read env (readArg n))).2 = .ok (.bytes b) := hr
      unfold outOf at hr2
      cases hx : (t.read env (readArg n)).1 with
      | error e => simp [hx] at hr2
      | ok a => simp [hx] at hr2; rw [hr2]
    unfold S.read at hr'
    split at hr'
    · cases hr'
    · dsimp only at hr'
      have hp := h.pos
      have hs := h.size
      obtain ⟨k, hk, hkl, hkv⟩ : ∃ k : Nat, (if readArg n = -1 then (t.f.size : Int) - t.f.pos
          else min (readArg n) ((t.f.size : Int) - t.f.pos)) = (k : Int) ∧ t.f.pos + k ≤ mt.size ∧
          k = atMost n (mt.size - t.f.pos) := by
        cases n with
        | none => exact ⟨mt.size - t.f.pos, by simp [readArg, h.size]; omega, by omega, rfl⟩
        | some n =>
          refine ⟨min n (mt.size - t.f.pos), ?_, by omega, rfl⟩
          rw [if_neg (by simp only [readArg]; omega)]
          simp only [readArg, h.size]; omega
      rw [hk] at hr'
      obtain ⟨b', h1, h2, h3⟩ := (readLoop_ro hsz _ k t [] h hkl).2.2.2 b hr'
      simp only [List.nil_append] at h1
      subst h1
      first
        | exact h2.trans hkv
        | exact h3

/-- **C04** (failure direction) A read whose range touches a bad chunk does not succeed. -/
theorem C04_bad_chunk_fails (env : Env) (w : World)
    (hsz : ∀ h d, w.chunks.get? h = some (some d) → env.H d = h → d.length ≤ env.cs)
    (name : String) (mode : Mode) (mt : Meta) (s : S)
    (hm : w.metas.get? name = some (some mt)) (hmode : mode.w = false) (ha : mode.a = false)
    (ho : File.open w name mode = .ok s) (ops : List Op) (n p : Nat) (h : Hash)
    (hp : (s.run env ops).f.pos ≤ p) (hpn : p < (s.run env ops).f.pos + n) (hps : p < mt.size)
    (hmap : mt.mapping.get? (p / env.cs) = some h) (hbad : Bad env w h) (b : Bytes) :
    ((s.run env ops).step env (.read (some n))).2 ≠ .ok (.bytes b) := by
  intro hr
  obtain ⟨h1, h2, _⟩ := C04_reads_are_certified env w hsz name mode mt s hm hmode ha ho ops _ b hr
  simp only [atMost] at h1
  obtain ⟨h', d, e1, e2, e3, _⟩ := h2 (p - (s.run env ops).f.pos) (by omega)
  rw [show (s.run env ops).f.pos + (p - (s.run env ops).f.pos) = p by omega, hmap] at e1
  cases e1
  exact hbad ⟨d, e2, e3⟩

/-- A store whose second chunk file was overwritten with other bytes. -/
def corruptWorld : World :=
  { storedWorld with chunks := [(Test.hash [1, 2, 3, 4], some [1, 2, 3, 4]), (Test.hash [5, 6], some [5, 7])] }

theorem corruptWorld_size (h : Hash) (d : Bytes) (hd : corruptWorld.chunks.get? h = some (some d)) :
    d.length ≤ Test.env.cs := by
  have hm := Dict.mem_of_get? hd
  simp only [corruptWorld, List.mem_cons, Prod.mk.injEq, List.not_mem_nil, or_false, Option.some.injEq] at hm
  rcases hm with ⟨_, rfl⟩ | ⟨_, rfl⟩ <;> decide

/-- Test (C04): in the damaged store the first four bytes can be read, and reading on fails. -/
example : ∃ s, File.open corruptWorld "b" ⟨true, false, false⟩ = .ok s ∧
    (s.step Test.env (.read (some 4))).2 = .ok (.bytes [1, 2, 3, 4]) ∧
    (s.step Test.env (.read (some 5))).2 = .error .backend ∧
    Bad Test.env corruptWorld (Test.hash [5, 6]) := by
  refine ⟨_, rfl, by decide +kernel, by decide +kernel, ?_⟩
  rintro ⟨d, h1, h2⟩
  have : corruptWorld.chunks.get? (Test.hash [5, 6]) = some (some [5, 7]) := by decide +kernel
  rw [this] at h1
  cases h1
  exact absurd h2 (by decide)

/-- Test (C04): the theorem applies to that store. -/
example (s : S) (ho : File.open corruptWorld "b" ⟨true, false, false⟩ = .ok s) (b : Bytes) :
    ((s.run Test.env []).step Test.env (.read (some 5))).2 ≠ .ok (.bytes b) := by
  have h0 : (s.run Test.env []).f.pos = 0 := by cases ho; rfl
  refine C04_bad_chunk_fails Test.env corruptWorld (fun h d hd _ => corruptWorld_size h d hd) "b" _ _ s
    (show corruptWorld.metas.get? "b" = some (some ⟨[(0, Test.hash [1, 2, 3, 4]), (1, Test.hash [5, 6])], 6⟩) from rfl)
    rfl rfl ho [] 5 4 (Test.hash [5, 6]) (by omega) (by omega) (by decide) rfl ?_ b
  rintro ⟨d, h1, h2⟩
  have : corruptWorld.chunks.get? (Test.hash [5, 6]) = some (some [5, 7]) := by decide +kernel
  rw [this] at h1
  cases h1
  exact absurd h2 (by decide)

/-- C04_reads_are_certified: the undamaged part of the image is read. -/
example (s : S) (ho : File.open corruptWorld "b" ⟨true, false, false⟩ = .ok s)
    (hr : ((s.run Test.env []).step Test.env (.read (some 4))).2 = .ok (.bytes [1, 2, 3, 4])) :=
  C04_reads_are_certified Test.env corruptWorld (fun h d hd _ => corruptWorld_size h d hd) "b" _ _ s
    (show corruptWorld.metas.get? "b" = some (some ⟨[(0, Test.hash [1, 2, 3, 4]), (1, Test.hash [5, 6])], 6⟩) from rfl)
    rfl rfl ho [] (some 4) [1, 2, 3, 4] hr

/-! ### Which error, and when -/

theorem currentChunk_has {env : Env} {w : World} {m : Dict Nat Hash} {size : Nat} {s : S} (h : RO env w m size s) :
    ∃ ch, (s.currentChunk env).2.f.chunks.get? (s.f.pos / env.cs) = some ch := by
  unfold S.currentChunk
  dsimp only
  by_cases hh : s.f.chunks.has (s.f.pos / env.cs) = true
  · rw [if_pos hh]
    dsimp only
    unfold Dict.has at hh
    exact Option.isSome_iff_exists.1 hh
  · rw [if_neg hh]
    obtain ⟨s1, e1, _⟩ := h.flushChunks flushTarget
    rw [e1]
    exact ⟨_, Dict.get?_set_self ..⟩

theorem RO.open_step {env : Env} {w : World} {m : Dict Nat Hash} {size : Nat}
    (hsz : ∀ h d, w.chunks.get? h = some (some d) → env.H d = h → d.length ≤ env.cs)
    {s : S} (h : RO env w m size s) (op : Op) (hop : op ≠ .close) :
    (s.step env op).1.f.mode = s.f.mode ∧ (s.step env op).1.f.closed = s.f.closed := by
  have hw : ∀ d, s.write env d = (.error .assertion, s) := fun d => by simp [S.write, h.mode]
  cases op with
  | seek o wh =>
    show (s.seek env o wh).2.f.mode = _ ∧ (s.seek env o wh).2.f.closed = _
    unfold S.seek
    split
    · exact ⟨rfl, rfl⟩
    · split
      · exact ⟨rfl, rfl⟩
      · split
        · exact ⟨rfl, rfl⟩
        · dsimp only
          split
          · rw [fill_readonly (s := ⟨{ s.f with pos := s.f.size }, s.w⟩) h.mode (by omega)]
            exact ⟨rfl, rfl⟩
          · exact ⟨rfl, rfl⟩
  | write d =>
    show (s.write env d).2.f.mode = _ ∧ (s.write env d).2.f.closed = _
    rw [hw]; exact ⟨rfl, rfl⟩
  | read n =>
    show (s.read env (readArg n)).2.f.mode = _ ∧ (s.read env (readArg n)).2.f.closed = _
    unfold S.read
    split
    · exact ⟨rfl, rfl⟩
    · dsimp only
      have hp := h.pos
      have hs := h.size
      obtain ⟨k, hk, hkl⟩ : ∃ k : Nat, (if readArg n = -1 then (s.f.size : Int) - s.f.pos
          else min (readArg n) ((s.f.size : Int) - s.f.pos)) = (k : Int) ∧ s.f.pos + k ≤ size := by
        cases n with
        | none => exact ⟨size - s.f.pos, by simp [readArg, h.size]; omega, by omega⟩
        | some n =>
          refine ⟨min n (size - s.f.pos), ?_, by omega⟩
          rw [if_neg (by simp only [readArg]; omega)]
          simp only [readArg, h.size]; omega
      rw [hk]
      exact ⟨(readLoop_ro hsz _ k s [] h hkl).2.1, (readLoop_ro hsz _ k s [] h hkl).2.2.1⟩
  | truncate =>
    have : s.truncate env none = (.error .assertion, s) := by simp [S.truncate, h.mode]
    show (s.truncate env none).2.f.mode = _ ∧ (s.truncate env none).2.f.closed = _
    rw [this]; exact ⟨rfl, rfl⟩
  | flush =>
    have : s.flush env = (.error .assertion, s) := by simp [S.flush, h.mode]
    show (s.flush env).2.f.mode = _ ∧ (s.flush env).2.f.closed = _
    rw [this]; exact ⟨rfl, rfl⟩
  | tell =>
    show s.tell.2.f.mode = _ ∧ s.tell.2.f.closed = _
    unfold S.tell; split <;> exact ⟨rfl, rfl⟩
  | close => exact absurd rfl hop

theorem RO.open_run {env : Env} {w : World} {m : Dict Nat Hash} {size : Nat}
    (hsz : ∀ h d, w.chunks.get? h = some (some d) → env.H d = h → d.length ≤ env.cs) (ops : List Op) :
    ∀ {s : S}, RO env w m size s → Op.close ∉ ops → (s.run env ops).f.mode = s.f.mode ∧ (s.run env ops).f.closed = s.f.closed := by
  induction ops with
  | nil => exact fun _ _ => ⟨rfl, rfl⟩
  | cons op ops ih =>
    intro s h hc
    obtain ⟨h1, h2⟩ := ih (h.step hsz op) (fun hm => hc (List.mem_cons_of_mem _ hm))
    obtain ⟨h3, h4⟩ := h.open_step hsz op (fun he => hc (he ▸ List.mem_cons_self ..))
    exact ⟨h1.trans h3, h2.trans h4⟩

/-- The recorded chunks cover the image: every chunk file that is sound is long enough. -/
def Covers (env : Env) (w : World) (mt : Meta) : Prop :=
  ∀ p < mt.size, ∃ h, mt.mapping.get? (p / env.cs) = some h ∧ ∀ d, w.chunks.get? h = some (some d) → env.H d = h → p % env.cs < d.length

theorem readLoop_error {env : Env} {w : World} {mt : Meta} (hcov : Covers env w mt) :
    ∀ (fuel k : Nat) (s : S) (acc : Bytes), RO env w mt.mapping mt.size s → s.f.pos + k ≤ mt.size → k ≤ fuel → ∀ e,
      (s.readLoop env fuel k acc).1 = .error e → e = .backend ∧
        ∃ p h, s.f.pos ≤ p ∧ p < s.f.pos + k ∧ mt.mapping.get? (p / env.cs) = some h ∧ Bad env w h := by
  intro fuel
  induction fuel with
  | zero =>
    intro k s acc hr hk hf e he
    have : k = 0 := by omega
    subst this
    rw [S.readLoop, if_pos (by rfl)] at he
    cases he
  | succ fuel ih =>
    intro k s acc hr hk hf e he
    rw [S.readLoop] at he
    split at he
    · cases he
    · rename_i h0
      dsimp only at he
      have hk0 : 0 < k := by omega
      obtain ⟨s1, e1, e2, e3, e4, e5⟩ := hr.currentChunk
      obtain ⟨ch, hg⟩ := currentChunk_has hr
      rw [e1] at he hg
      dsimp only at he hg
      rw [hg] at he
      dsimp only at he
      have hcache := e2.cache _ _ (Dict.mem_of_get? hg)
      obtain ⟨x, hx, hlong⟩ := hcov s.f.pos (by omega)
      have hre : (ch.readExisting env s1.w = .error .backend ∧ Bad env w x) ∨
          ∃ buf, ch.readExisting env s1.w = .ok { ch with data := some buf } ∧ GoodData env w (some x) buf := by
        unfold Chunk.readExisting
        cases hd : ch.data with
        | some buf =>
          right
          exact ⟨buf, by dsimp only; rw [← hd], by have := hcache.2.2 buf hd; rwa [hx] at this⟩
        | none =>
          dsimp only
          rw [hcache.2.1, hx, e2.chunks]
          dsimp only
          cases hw : w.chunks.get? x with
          | none => exact Or.inl ⟨rfl, fun ⟨d, h1, _⟩ => by rw [hw] at h1; cases h1⟩
          | some y =>
            cases y with
            | none => exact Or.inl ⟨rfl, fun ⟨d, h1, _⟩ => by rw [hw] at h1; cases h1⟩
            | some d =>
              dsimp only
              split
              · rename_i hH
                exact Or.inr ⟨d, rfl, hw, hH⟩
              · rename_i hH
                exact Or.inl ⟨rfl, fun ⟨d', h1, h2⟩ => by rw [hw] at h1; cases h1; exact hH h2⟩
      rcases hre with ⟨hre, hbad⟩ | ⟨buf, hre, hgood⟩
      · unfold Chunk.read at he
        rw [hre] at he
        cases he
        exact ⟨rfl, s.f.pos, x, Nat.le_refl _, by omega, hx, hbad⟩
      · unfold Chunk.read at he
        rw [hre] at he
        dsimp only at he
        have hl := hlong buf hgood.1 hgood.2
        generalize hdata : bufRead buf (s.f.pos % env.cs) k = data at he
        have hdl : 0 < data.length ∧ data.length ≤ k := by
          rw [← hdata]; unfold bufRead; rw [if_neg (by omega)]; simp; omega
        have hde : data ≠ [] := fun h => by rw [h] at hdl; simp at hdl
        rw [if_neg hde, if_pos (by omega : (k : Int) ≠ -1)] at he
        have hrem : max 0 ((k : Int) - data.length) = ((k - data.length : Nat) : Int) := by omega
        rw [hrem] at he
        have hRO : RO env w mt.mapping mt.size { s1 with f := { s1.f with
            chunks := s1.f.chunks.set (s.f.pos / env.cs) { ch with data := some buf }, pos := s1.f.pos + data.length } } := by
          refine ⟨e2.chunks, e2.metas, e2.mapping, e2.size, by show s1.f.pos + data.length ≤ _; omega, e2.mode, ?_⟩
          intro id c hmem
          rcases Dict.mem_set hmem with hmem | hmem
          · cases hmem
            refine ⟨hcache.1, hcache.2.1, ?_⟩
            intro d hd; cases hd; rw [hx]; exact hgood
          · exact e2.cache id c hmem
        obtain ⟨r1, p, h, r2, r3, r4, r5⟩ := ih (k - data.length) _ (acc ++ data) hRO
          (by show s1.f.pos + data.length + _ ≤ _; omega) (by omega) e he
        change s1.f.pos + data.length ≤ p at r2
        change p < s1.f.pos + data.length + _ at r3
        exact ⟨r1, p, h, by omega, by omega, r4, r5⟩

/-- **C04** (errors) In any read-only session over a store that may be damaged in any way, a read that does not return bytes raises a backend error, and this only happens
if a chunk in the range that was to be read is bad. -/
theorem C04_backend_error (env : Env) (w : World)
    (hsz : ∀ h d, w.chunks.get? h = some (some d) → env.H d = h → d.length ≤ env.cs)
    (name : String) (mode : Mode) (mt : Meta) (s : S)
    (hm : w.metas.get? name = some (some mt)) (hcov : Covers env w mt) (hr : mode.r = true) (hmode : mode.w = false) (ha : mode.a = false)
    (ho : File.open w name mode = .ok s) (ops : List Op) (hopen : Op.close ∉ ops) (n : Option Nat) :
    (∃ b, ((s.run env ops).step env (.read n)).2 = .ok (.bytes b)) ∨
    (((s.run env ops).step env (.read n)).2 = .error .backend ∧ ∃ p h, (s.run env ops).f.pos ≤ p ∧
      p < (s.run env ops).f.pos + atMost n (mt.size - (s.run env ops).f.pos) ∧ mt.mapping.get? (p / env.cs) = some h ∧ Bad env w h) := by
  have h := (open_ro hm hmode ha ho).run hsz ops (env := env)
  have hstate : (s.run env ops).f.mode.r = true ∧ (s.run env ops).f.closed = false := by
    obtain ⟨h1, h2⟩ := (open_ro hm hmode ha ho).open_run hsz ops hopen (env := env)
    rw [h1, h2]
    unfold File.open at ho
    rw [hm] at ho
    cases ho
    exact ⟨hr, rfl⟩
  generalize s.run env ops = t at *
  show (∃ b, (outOf .bytes (t.read env (readArg n))).2 = .ok (.bytes b)) ∨ ((outOf .bytes (t.read env (readArg n))).2 = .error .backend ∧ _)
  have hp := h.pos
  have hs := h.size
  obtain ⟨k, hk, hkl, hkv⟩ : ∃ k : Nat, (if readArg n = -1 then (t.f.size : Int) - t.f.pos
      else min (readArg n) ((t.f.size : Int) - t.f.pos)) = (k : Int) ∧ t.f.pos + k ≤ mt.size ∧
      k = atMost n (mt.size - t.f.pos) := by
    cases n with
    | none => exact ⟨mt.size - t.f.pos, by simp [readArg, h.size]; omega, by omega, rfl⟩
    | some n =>
      refine ⟨min n (mt.size - t.f.pos), ?_, by omega, rfl⟩
      rw [if_neg (by simp only [readArg]; omega)]
      simp only [readArg, h.size]; omega
  rw [← hkv]
  unfold S.read
  rw [if_neg (by rw [hstate.1, hstate.2]; simp)]
  dsimp only
  rw [hk]
  have hl := readLoop_error hcov ((k : Int).toNat + t.f.mapping.length + t.f.chunks.length + 2) k t [] h hkl (by simp; omega)
  unfold outOf
  cases hx : (t.readLoop env ((k : Int).toNat + t.f.mapping.length + t.f.chunks.length + 2) k []).1 with
  | ok b => exact Or.inl ⟨b, by simp⟩
  | error e =>
    obtain ⟨h1, h2⟩ := hl e hx
    exact Or.inr ⟨by simp [h1], h2⟩
theorem corruptWorld_covers : Covers Test.env corruptWorld ⟨[(0, Test.hash [1, 2, 3, 4]), (1, Test.hash [5, 6])], 6⟩ := by
  intro p hp
  have h4 : p / Test.env.cs = p / 4 := rfl
  have h5 : p % Test.env.cs = p % 4 := rfl
  rcases Nat.lt_or_ge p 4 with h | h
  · have h0 : p / 4 = 0 := by omega
    rw [h4, h0]
    refine ⟨_, rfl, fun d hd _ => ?_⟩
    have he : corruptWorld.chunks.get? (Test.hash [1, 2, 3, 4]) = some (some [1, 2, 3, 4]) := by decide +kernel
    rw [he] at hd
    cases hd
    rw [h5]
    show p % 4 < 4
    omega
  · have h0 : p / 4 = 1 := by dsimp only at hp; omega
    rw [h4, h0]
    refine ⟨_, rfl, fun d hd hH => ?_⟩
    have he : corruptWorld.chunks.get? (Test.hash [5, 6]) = some (some [5, 7]) := by decide +kernel
    rw [he] at hd
    cases hd
    exact absurd hH (by decide)

/-- Test (C04_backend_error): any read after any calls in the damaged store. -/
example (s : S) (ho : File.open corruptWorld "b" ⟨true, false, false⟩ = .ok s) (ops : List Op) (hc : Op.close ∉ ops) (n : Option Nat) :=
  C04_backend_error Test.env corruptWorld (fun h d hd _ => corruptWorld_size h d hd) "b" _ _ s
    (show corruptWorld.metas.get? "b" = some (some ⟨[(0, Test.hash [1, 2, 3, 4]), (1, Test.hash [5, 6])], 6⟩) from rfl)
    corruptWorld_covers rfl rfl rfl ho ops hc n

end Verif.Chunked
