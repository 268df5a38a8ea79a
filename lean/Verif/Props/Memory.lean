import Verif.Proofs.ChunkedInv
import Verif.Spec.TestEnv
/-!
# Property C113: an image needs a bounded amount of memory
-/
namespace Verif.Chunked
open Verif Verif.Spec

/-- The number of bytes of an image that are kept in memory. -/
def S.inMemory (s : S) : Nat := (s.f.chunks.map (fun e => (e.2.data.getD []).length)).sum

/-- No stored chunk is larger than the chunk size. -/
def Sized (env : Env) (w : World) : Prop := ∀ h d, w.chunks.get? h = some (some d) → d.length ≤ env.cs

/-- The invariant. -/
structure Mem (env : Env) (s : S) : Prop where
  count : s.f.chunks.length ≤ 20
  small : ∀ e ∈ s.f.chunks, ∀ d, e.2.data = some d → d.length ≤ env.cs
  store : Sized env s.w

theorem length_set {K V : Type} [DecidableEq K] (d : Dict K V) (k : K) (v : V) :
    (d.set k v).length = if d.has k = true then d.length else d.length + 1 := by
  have hl : ∀ x : Dict K V, x.length = x.keys.length := fun x => by simp [Dict.keys]
  rw [hl, hl d, Dict.keys_set]
  by_cases h : k ∈ d.keys
  · rw [if_pos h, if_pos (show d.has k = true from Dict.mem_keys_iff.1 h)]
  · rw [if_neg h, if_neg (fun e : d.has k = true => h (Dict.mem_keys_iff.2 e)), List.length_append]
    rfl

theorem Mem.flushOne {env : Env} {s : S} (h : Mem env s) {c c' : Chunk} {h? : Option Hash} {w : World}
    (hc : ∀ d, c.data = some d → d.length ≤ env.cs) (hf : c.flush env s.w = .ok (h?, c', w)) : Sized env w := by
  unfold Chunk.flush at hf
  split at hf
  · cases hf; exact h.store
  · split at hf
    · cases hf
    · rename_i d hd
      simp only [Except.ok.injEq, Prod.mk.injEq] at hf
      obtain ⟨_, _, rfl⟩ := hf
      intro k x hx
      split at hx
      · exact h.store k x hx
      · dsimp only at hx
        split at hx
        · dsimp only at hx
          rw [Dict.get?_set] at hx
          split at hx
          · cases hx; exact hc d hd
          · exact h.store k x hx
        · exact h.store k x hx

theorem Mem.flushList {env : Env} (l : List (Nat × Chunk)) : ∀ {s : S}, Mem env s → (∀ e ∈ l, ∀ d, e.2.data = some d → d.length ≤ env.cs) →
    Mem env (flushList env l s).2 := by
  induction l with
  | nil => exact fun h _ => h
  | cons e l ih =>
    intro s h hl
    obtain ⟨id, c⟩ := e
    unfold Chunked.flushList
    split
    · exact h
    · rename_i h? c' w hf
      have hw := h.flushOne (hl (id, c) (by simp)) hf
      split
      · exact ih ⟨h.count, h.small, hw⟩ (fun e he => hl e (by simp [he]))
      · exact ih ⟨h.count, h.small, hw⟩ (fun e he => hl e (by simp [he]))

theorem Mem.flushChunks {env : Env} {s : S} (h : Mem env s) (t : Nat) :
    Mem env (s.flushChunks env t).2 ∧ ((s.flushChunks env t).1 = .ok () → (s.flushChunks env t).2.f.chunks.length < max (2 * t) (t + 1)) := by
  have hperm : s.f.sortedChunks.Perm s.f.chunks := sortBy_perm _ _
  have hs : ∀ e ∈ s.f.sortedChunks, ∀ d, e.2.data = some d → d.length ≤ env.cs := fun e he => h.small e (hperm.mem_iff.1 he)
  unfold S.flushChunks
  split
  · exact ⟨h, fun _ => by show s.f.chunks.length < _; omega⟩
  · have hf := h.flushList (s.f.sortedChunks.drop t) (fun e he => hs e (List.mem_of_mem_drop he))
    dsimp only
    split
    · rename_i heq
      rw [heq] at hf
      exact ⟨hf, by intro h; cases h⟩
    · rename_i heq
      rw [heq] at hf
      refine ⟨⟨?_, fun e he => hs e (List.mem_of_mem_take he), hf.store⟩, fun _ => ?_⟩
      · show (s.f.sortedChunks.take t).length ≤ 20
        rw [List.length_take, hperm.length_eq]
        have := h.count
        omega
      · show (s.f.sortedChunks.take t).length < _
        rw [List.length_take]
        omega

theorem Mem.flush {env : Env} {s : S} (h : Mem env s) : Mem env (s.flush env).2 := by
  unfold S.flush
  split
  · exact h
  · have hf := (h.flushChunks 0).1
    split
    · rename_i heq; rw [heq] at hf; exact hf
    · rename_i heq; rw [heq] at hf; exact ⟨hf.count, hf.small, hf.store⟩

theorem Mem.close {env : Env} {s : S} (h : Mem env s) : Mem env (s.close env).2 := by
  unfold S.close
  split
  · exact h
  · split
    · have hf := h.flush
      split
      · rename_i heq; rw [heq] at hf; exact hf
      · rename_i heq; rw [heq] at hf; exact ⟨hf.count, hf.small, hf.store⟩
    · exact ⟨h.count, h.small, h.store⟩

/-- A chunk that is kept already is replaced. -/
theorem Mem.replace {env : Env} {s : S} (h : Mem env s) {id : Nat} (hid : s.f.chunks.has id = true) (c : Chunk)
    (hc : ∀ d, c.data = some d → d.length ≤ env.cs) {f : File} (hf : f.chunks = s.f.chunks.set id c) : Mem env ⟨f, s.w⟩ := by
  refine ⟨?_, ?_, h.store⟩
  · show f.chunks.length ≤ 20
    rw [hf, length_set, if_pos hid]; exact h.count
  · intro e he
    have he : e ∈ s.f.chunks.set id c := by rw [← hf]; exact he
    rcases Dict.mem_set he with rfl | he
    · exact hc
    · exact h.small e he

theorem Mem.currentChunk {env : Env} {s : S} (h : Mem env s) : Mem env (s.currentChunk env).2 := by
  unfold S.currentChunk
  dsimp only
  by_cases hh : s.f.chunks.has (s.f.pos / env.cs) = true
  · simp only [hh, if_true]; exact ⟨h.count, h.small, h.store⟩
  · simp only [hh, Bool.false_eq_true, if_false]
    have hf := h.flushChunks flushTarget
    generalize hr : s.flushChunks env flushTarget = r at hf
    obtain ⟨a, b⟩ := r
    cases a with
    | error e => exact hf.1
    | ok u =>
      have hb := hf.2 rfl
      dsimp only at hb hf ⊢
      refine ⟨?_, ?_, hf.1.store⟩
      · show (b.f.chunks.set _ _).length ≤ 20
        rw [length_set]
        have : b.f.chunks.length < 20 := hb
        split <;> omega
      · intro e he
        rcases Dict.mem_set he with rfl | he
        · intro d hd; cases hd
        · exact hf.1.small e he

theorem Mem.existing {env : Env} {s : S} (h : Mem env s) {c c' : Chunk} (hc : ∀ d, c.data = some d → d.length ≤ env.cs)
    (hr : c.readExisting env s.w = .ok c') : ∀ d, c'.data = some d → d.length ≤ env.cs := by
  unfold Chunk.readExisting at hr
  split at hr
  · cases hr; exact hc
  · split at hr
    · cases hr; intro d hd; cases hd; exact Nat.zero_le _
    · split at hr
      · cases hr
      · cases hr
      · rename_i heq
        split at hr
        · cases hr; intro d hd; cases hd; exact h.store _ _ heq
        · cases hr

theorem Mem.afterRead {env : Env} {s : S} (h : Mem env s) {c c' : Chunk} {off : Nat} {size rest : Int} {data : Bytes}
    (hc : ∀ d, c.data = some d → d.length ≤ env.cs) (hr : c.read env s.w off size = .ok (data, rest, c')) :
    ∀ d, c'.data = some d → d.length ≤ env.cs := by
  unfold Chunk.read at hr
  split at hr
  · cases hr
  · rename_i hx
    split at hr
    · cases hr
    · cases hr
      exact h.existing hc hx

theorem has_of_get {K V : Type} [DecidableEq K] {d : Dict K V} {k : K} {v : V} (h : d.get? k = some v) : d.has k = true := by
  unfold Dict.has; rw [h]; rfl

theorem Mem.readLoop {env : Env} (fuel : Nat) : ∀ {s : S} (_ : Mem env s) (size : Int) (acc : Bytes),
    Mem env (s.readLoop env fuel size acc).2 := by
  induction fuel with
  | zero => intro s h size acc; unfold S.readLoop; split <;> exact h
  | succ n ih =>
    intro s h size acc
    unfold S.readLoop
    split
    · exact h
    · dsimp only
      have h := h.currentChunk
      split
      · rename_i heq; rw [heq] at h; exact h
      · rename_i heq; rw [heq] at h
        dsimp only at h
        split
        · exact h
        · rename_i c hc
          have hsmall := h.small _ (Dict.mem_of_get? hc)
          split
          · exact h
          · rename_i hr
            have hc' := h.afterRead hsmall hr
            have hm : ∀ f : File, f.chunks = _ → Mem env ⟨f, _⟩ := fun f hf => h.replace (has_of_get hc) _ hc' hf
            split
            · exact hm _ rfl
            · exact ih (hm _ rfl) _ _

theorem Mem.written {env : Env} {s : S} (h : Mem env s) {c c' : Chunk} {data rest : Bytes} {off n : Nat} (hoff : off < env.cs)
    (hc : ∀ d, c.data = some d → d.length ≤ env.cs) (hw : c.write env s.w off data = .ok (n, rest, c')) :
    ∀ d, c'.data = some d → d.length ≤ env.cs := by
  unfold Chunk.write at hw
  dsimp only at hw
  split at hw
  · rename_i hl
    cases hw
    intro d hd; cases hd
    exact Nat.le_of_eq hl.2
  · split at hw
    · cases hw
    · rename_i hx
      split at hw
      · cases hw
      · rename_i buf hb
        cases hw
        intro d hd; cases hd
        have := h.existing hc hx _ hb
        rw [writeAt_length, List.length_take]
        split <;> omega

theorem currentChunk_off {env : Env} {s s' : S} {id off : Nat} (h : s.currentChunk env = (.ok (id, off), s')) : off < env.cs := by
  unfold S.currentChunk at h
  dsimp only at h
  generalize (if s.f.chunks.has (s.f.pos / env.cs) = true then ((.ok (), s) : Except PyErr Unit × S) else _) = r at h
  obtain ⟨a, b⟩ := r
  cases a with
  | error e => cases h
  | ok u =>
    cases h
    exact Nat.mod_lt _ env.cs_pos

theorem Mem.writeLoop {env : Env} (s : S) (data : Bytes) (h : Mem env s) : Mem env (s.writeLoop env data).2 := by
  fun_induction S.writeLoop env s data with
  | case1 => exact h
  | case2 s data _ e s' heq => have h := h.currentChunk; rw [heq] at h; exact h
  | case3 s data _ id off s' heq => have h := h.currentChunk; rw [heq] at h; exact h
  | case4 s data _ id off s' heq => have h := h.currentChunk; rw [heq] at h; exact h
  | case5 s data _ id off s' heq c hc n rest c' hw hr pos ih =>
    have hoff := currentChunk_off heq
    have h := h.currentChunk; rw [heq] at h
    exact ih (h.replace (has_of_get hc) c' (h.written hoff (h.small _ (Dict.mem_of_get? hc)) hw) rfl)
  | case6 s data _ id off s' heq => have h := h.currentChunk; rw [heq] at h; exact h

theorem Mem.write {env : Env} {s : S} (h : Mem env s) (d : Bytes) : Mem env (s.write env d).2 := by
  unfold S.write
  split
  · exact h
  · exact Mem.writeLoop s d h

theorem Mem.fill {env : Env} (s : S) (n : Nat) (h : Mem env s) : Mem env (s.fill env n).2 := by
  fun_induction S.fill env s n with
  | case1 => exact h
  | case2 s n => rename_i heq; have h := h.write (zeros (min n env.blk)); rw [heq] at h; exact h
  | case3 s n =>
    rename_i heq ih
    have h := h.write (zeros (min n env.blk)); rw [heq] at h
    exact ih h

theorem Mem.seek {env : Env} {s : S} (h : Mem env s) (o : Int) (wh : Whence) : Mem env (s.seek env o wh).2 := by
  unfold S.seek
  split
  · exact h
  · generalize s.f.seekTarget o wh = t
    cases t with
    | error e => exact h
    | ok p =>
      dsimp only
      split
      · exact h
      · split
        · have h := Mem.fill { s with f := { s.f with pos := s.f.size } } (p.toNat - s.f.size) ⟨h.count, h.small, h.store⟩
          split
          · rename_i heq; rw [heq] at h; exact h
          · rename_i heq; rw [heq] at h
            split <;> exact h
        · exact ⟨h.count, h.small, h.store⟩

theorem Mem.truncate {env : Env} {s : S} (h : Mem env s) (n : Option Nat) : Mem env (s.truncate env n).2 := by
  unfold S.truncate
  split
  · exact h
  · exact Mem.flush ⟨h.count, h.small, h.store⟩

theorem Mem.step {env : Env} {s : S} (h : Mem env s) (op : Op) : Mem env (s.step env op).1 := by
  cases op with
  | seek o wh => exact h.seek o wh
  | write d => exact h.write d
  | read n =>
    show Mem env (s.read env _).2
    unfold S.read
    split
    · exact h
    · exact Mem.readLoop _ h _ _
  | truncate => exact h.truncate none
  | flush => exact h.flush
  | tell =>
    show Mem env s.tell.2
    unfold S.tell; split <;> exact h
  | close => exact h.close

theorem Mem.run {env : Env} (ops : List Op) : ∀ {s : S}, Mem env s → Mem env (s.run env ops) := by
  induction ops with
  | nil => exact fun h => h
  | cons op ops ih => exact fun h => ih (h.step op)

theorem Mem.opened {env : Env} {w : World} {name : String} {mode : Mode} {s : S} (hw : Sized env w) (h : File.open w name mode = .ok s) : Mem env s := by
  unfold File.open at h
  split at h
  · split at h
    · cases h
    · cases h; exact ⟨Nat.zero_le _, by simp, hw⟩
  · cases h
  · cases h; exact ⟨Nat.zero_le _, by simp, hw⟩

theorem Mem.bytes {env : Env} {s : S} (h : Mem env s) : s.inMemory ≤ 20 * env.cs := by
  have key : ∀ l : List (Nat × Chunk), (∀ e ∈ l, ∀ d, e.2.data = some d → d.length ≤ env.cs) →
      (l.map (fun e => (e.2.data.getD []).length)).sum ≤ l.length * env.cs := by
    intro l
    induction l with
    | nil => simp
    | cons e l ih =>
      intro hl
      rw [List.map_cons, List.sum_cons, List.length_cons, Nat.succ_mul]
      have h1 := ih (fun e he => hl e (by simp [he]))
      have h2 : (e.2.data.getD []).length ≤ env.cs := by
        cases hd : e.2.data with
        | none => exact Nat.zero_le _
        | some d => exact hl e (by simp) d hd
      omega
  exact Nat.le_trans (key _ h.small) (Nat.mul_le_mul_right _ h.count)

/-- **C113** Whatever is done with an opened image, however large it is, and whether the operations succeed or fail: never are more than
twenty chunks kept in memory, and never more bytes than that. -/
theorem C113_bounded_memory (env : Env) (w : World) (name : String) (mode : Mode) (s : S) (hw : Sized env w)
    (h : File.open w name mode = .ok s) (ops : List Op) :
    (s.run env ops).f.chunks.length ≤ 20 ∧ (s.run env ops).inMemory ≤ 20 * env.cs :=
  ⟨((Mem.opened hw h).run ops).count, ((Mem.opened hw h).run ops).bytes⟩

/-- **C113** The stored chunks stay small. -/
theorem C113_small_chunks (env : Env) (w : World) (name : String) (mode : Mode) (s : S) (hw : Sized env w)
    (h : File.open w name mode = .ok s) (ops : List Op) : Sized env (s.run env ops).w :=
  ((Mem.opened hw h).run ops).store

/-! ## A concrete case -/

/-- An image of 25 equal chunks. -/
def exStored : World := ⟨[(Test.env.H [7, 7, 7, 7], some [7, 7, 7, 7])],
  [("a", some ⟨(List.range 25).map (fun i => (i, Test.env.H [7, 7, 7, 7])), 100⟩)], [], false, 0, []⟩

/-- It has been opened. -/
def exReading : S := ⟨⟨"a", Mode.parse "r", false, 0, 100, (List.range 25).map (fun i => (i, Test.env.H [7, 7, 7, 7])), [], []⟩, exStored⟩

theorem exStored_sized : Sized Test.env exStored := by
  intro h d hd
  have := Dict.mem_of_get? hd
  simp only [exStored, List.mem_singleton, Prod.mk.injEq, Option.some.injEq] at this
  rw [this.2]; decide

/-- At some time twenty chunks are in memory, later only ten are left. -/
example : Test.env.cs = 4 ∧ (exReading.run Test.env [.read (some 80)]).f.chunks.length = 20 ∧ (exReading.run Test.env [.read (some 80)]).inMemory = 80 ∧
    (exReading.run Test.env [.read (some 80), .read (some 1)]).f.chunks.length = 11 ∧
    (exReading.run Test.env [.read none]).f.chunks.length = 15 := by decide +kernel

example := C113_bounded_memory Test.env exStored "a" (Mode.parse "r") exReading exStored_sized rfl [.read none, .close]


/-- Chunk `a` was used more often than chunk `b`, or as often and not before it (`(count, last)` in the access statistics). -/
def UsedMore (f : File) (a b : Nat) : Prop :=
  (f.stat b).1 < (f.stat a).1 ∨ ((f.stat b).1 = (f.stat a).1 ∧ (f.stat b).2 ≤ (f.stat a).2)

/-- **C113** When chunks leave the memory, the `target` chunks used most (and, among these used equally often, most recently) stay. -/
theorem C113_hot (env : Env) (target : Nat) (s : S) (h : (s.flushChunks env target).1 = .ok ())
    (hfull : 2 * target ≤ s.f.chunks.length) :
    (s.flushChunks env target).2.f.chunks.length = min target s.f.chunks.length ∧
    ∀ a ∈ s.f.chunks, ∀ b ∈ s.f.chunks, a ∈ (s.flushChunks env target).2.f.chunks → b ∉ (s.flushChunks env target).2.f.chunks →
      UsedMore s.f a.1 b.1 := by
  have hsort : s.f.sortedChunks.Pairwise (fun a b => tupLe (s.f.stat b.1) (s.f.stat a.1) = true) := by
    refine sortBy_sorted _ ?_ ?_ _
    · intro a b hab
      simp only [tupLe, decide_eq_false_iff_not, decide_eq_true_eq] at hab ⊢
      omega
    · intro a b c hab hbc
      simp only [tupLe, decide_eq_true_eq] at hab hbc ⊢
      omega
  have hperm : s.f.sortedChunks.Perm s.f.chunks := sortBy_perm _ _
  unfold S.flushChunks at h ⊢
  rw [if_neg (by omega)] at h ⊢
  dsimp only at h ⊢
  generalize Chunked.flushList env (s.f.sortedChunks.drop target) s = g at h
  obtain ⟨g1, g2⟩ := g
  cases g1 with
  | error e => cases h
  | ok u =>
    refine ⟨by show (s.f.sortedChunks.take target).length = _; rw [List.length_take, hperm.length_eq], ?_⟩
    intro a _ b hb hka hkb
    have hb' : b ∈ s.f.sortedChunks := hperm.mem_iff.2 hb
    have hka : a ∈ s.f.sortedChunks.take target := hka
    have hkb : b ∉ s.f.sortedChunks.take target := hkb
    rw [← List.take_append_drop target s.f.sortedChunks] at hb' hsort
    have hd : b ∈ s.f.sortedChunks.drop target := by
      rcases List.mem_append.1 hb' with h | h
      · exact absurd h hkb
      · exact h
    have := (List.pairwise_append.1 hsort).2.2 a hka b hd
    simpa only [tupLe, decide_eq_true_eq, UsedMore] using this


/-- Chunks 0 and 1 are read, chunk 0 a second time: chunk 1 leaves the memory. -/
def exAgain : S := exReading.run Test.env [.read (some 8), .seek 0 .set, .read (some 1)]

theorem exAgain_chunks : exAgain.f.chunks.map (·.1) = [0, 1] ∧ (exAgain.flushChunks Test.env 1).1 = .ok () ∧
    (exAgain.flushChunks Test.env 1).2.f.chunks.map (·.1) = [0] := by decide +kernel

example := C113_hot Test.env 1 exAgain exAgain_chunks.2.1
  (by have := congrArg List.length exAgain_chunks.1; simp only [List.length_map] at this; rw [this]; decide)

example := C113_small_chunks Test.env exStored "a" (Mode.parse "r") exReading exStored_sized rfl [.read none, .close]

end Verif.Chunked
