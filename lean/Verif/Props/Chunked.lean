import Verif.Proofs.ChunkedOpen
import Verif.Spec.TestEnv
/-!
# Properties C01, C02, C03, C05, C06: chunked images

In all theorems `env` is arbitrary: any chunk size, any clock, any hash function that has no
collision among the contents hashed in the execution at hand (`CollFree`; the log is a ghost
field).  `WOK env w` says that the chunk store is sound; `OnDisk env w name c` that the image
`name` is stored completely with content `c`.
-/
namespace Verif.Chunked
open Verif Verif.Spec

/-- Start of a session: `s` results from opening image `name`, which is stored with content `c`, or
does not exist yet (`c = []`, only possible for writing). -/
structure Opened (env : Env) (w : World) (name : String) (mode : Mode) (c : Bytes) (s : S) : Prop where
  sound : WOK env w
  content : OnDisk env w name c ∨ (w.metas.get? name = none ∧ c = [])
  opened : File.open w name mode = .ok s

/-- The flat file that corresponds to a freshly opened image. -/
def flatOpen (mode : Mode) (c : Bytes) : Flat :=
  ⟨c, if mode.a then c.length else 0, mode.r, mode.w, false⟩

theorem Opened.R {env : Env} {w : World} {name : String} {mode : Mode} {c : Bytes} {s : S}
    (h : Opened env w name mode c s) : R env s (flatOpen mode c) ∧ s.w = w ∧ s.f.name = name := by
  rcases h.content with hd | ⟨hn, rfl⟩
  · obtain ⟨s', h1, h2, h3, h4⟩ := open_ok h.sound hd mode
    rw [h.opened] at h1; cases h1
    exact ⟨h4, h2, h3⟩
  · have hm : mode.w = true := by
      have := h.opened
      unfold File.open at this
      rw [hn] at this
      cases hmw : mode.w with
      | true => rfl
      | false => simp [hmw] at this
    obtain ⟨s', h1, h2, h3, h4⟩ := open_new h.sound hn mode hm
    rw [h.opened] at h1; cases h1
    refine ⟨?_, h2, h3⟩
    unfold flatOpen
    have : (if mode.a then ([] : Bytes).length else 0) = 0 := by split <;> rfl
    rw [this]; exact h4

/-- **C01** Any sequence of operations on an opened image yields at every step the same result, the
same position and the same size as on a plain file with the same content. -/
theorem C01_chunked_refines_flat (env : Env) (w : World) (name : String) (mode : Mode) (c : Bytes)
    (s : S) (h : Opened env w name mode c s) (ops : List Op)
    (hcoll : CollFree env.H (s.run env ops).w.log) :
    s.trace env ops = (flatOpen mode c).trace ops :=
  (run_ok hcoll ops h.R.1 (fun _ hx => hx)).2.1

/-- **C01** The mode is given as a string: "r" for reading, any of "w", "+" and "a" for writing, "a" to start at the end. -/
theorem C01_modes (env : Env) (w : World) (name : String) (mode : String) (c : Bytes) (s : S) (h : Opened env w name (Mode.parse mode) c s)
    (ops : List Op) (hcoll : CollFree env.H (s.run env ops).w.log) :
    s.trace env ops = (⟨c, if 'a' ∈ mode.toList then c.length else 0, decide ('r' ∈ mode.toList),
      decide (∃ x ∈ mode.toList, x = 'w' ∨ x = '+' ∨ x = 'a'), false⟩ : Flat).trace ops := by
  rw [C01_chunked_refines_flat env w name _ c s h ops hcoll]
  congr 1
  unfold flatOpen Mode.parse
  simp only [Flat.mk.injEq, and_true, true_and, decide_eq_true_eq, decide_eq_decide]
  constructor
  · rintro (h | h | h)
    · exact ⟨_, h, .inl rfl⟩
    · exact ⟨_, h, .inr (.inl rfl)⟩
    · exact ⟨_, h, .inr (.inr rfl)⟩
  · rintro ⟨x, h, rfl | rfl | rfl⟩
    · exact .inl h
    · exact .inr (.inl h)
    · exact .inr (.inr h)

theorem Flat.run_writable (fl : Flat) (ops : List Op) : (fl.run ops).writable = fl.writable := by
  induction ops generalizing fl with
  | nil => rfl
  | cons op ops ih =>
    show ((fl.step op).1.run ops).writable = _
    rw [ih]
    cases op <;> simp only [Flat.step] <;> (repeat' split) <;> rfl

/-- **C02** After any session that ends with closing a writable image, a new process that opens it in
any mode sees exactly the final content: every further session behaves as on a plain file with
that content. -/
theorem C02_close_reopen (env : Env) (w : World) (name : String) (mode : Mode) (c : Bytes)
    (s : S) (h : Opened env w name mode c s) (ops : List Op)
    (hw : mode.w = true) (hopen : ((flatOpen mode c).run ops).closed = false)
    (hcoll : CollFree env.H ((s.run env ops).close env).2.w.log) :
    ((s.run env ops).close env).1 = .ok () ∧
    ∀ mode' : Mode, ∃ s'',
      File.open ((s.run env ops).close env).2.w.fresh name mode' = .ok s'' ∧
      s''.f.size = ((flatOpen mode c).run ops).content.length ∧
      ∀ ops', CollFree env.H (s''.run env ops').w.log →
        s''.trace env ops' = (flatOpen mode' ((flatOpen mode c).run ops).content).trace ops' := by
  obtain ⟨hR, _, _, hname⟩ := run_ok hcoll ops h.R.1 (S.close_log env (s.run env ops))
  have hwr : ((flatOpen mode c).run ops).writable = true := by
    rw [Flat.run_writable]; exact hw
  obtain ⟨s1, e1, e2, e3, _⟩ := close_ok hcoll hR hwr hopen (fun _ hx => hx)
  rw [e1]
  have hn : (s.run env ops).f.name = name := hname.trans h.R.2.2
  rw [hn] at e3
  refine ⟨rfl, fun mode' => ?_⟩
  have hwok : WOK env s1.w.fresh := ⟨e2.good, by intro x hx; simp [World.fresh] at hx⟩
  obtain ⟨s'', f1, f2, f3, f4⟩ := open_ok hwok (show OnDisk env s1.w.fresh name _ from e3) mode'
  exact ⟨s'', f1, f4.rep.size, fun ops' hc' => (run_ok hc' ops' f4 (fun _ hx => hx)).2.1⟩

/-- The whole content, read through the API: seek to the start, read everything. -/
def S.readAll (env : Env) (s : S) : Except PyErr Out :=
  ((s.run env [.seek 0 .set]).step env (.read none)).2

theorem readAll_ok {env : Env} {L : List Bytes} (hL : CollFree env.H L) {s : S} {fl : Flat}
    (h : R env s fl) (hr : fl.readable = true) (hc : fl.closed = false)
    (hlog : (s.run env [.seek 0 .set, .read none]).w.log ⊆ L) :
    s.readAll env = .ok (.bytes fl.content) := by
  have ht := (run_ok hL [.seek 0 .set, .read none] h hlog).2.1
  have h2 : (s.trace env [.seek 0 .set, .read none])[1]? =
      some (s.readAll env, (s.run env [.seek 0 .set, .read none]).f.pos,
        (s.run env [.seek 0 .set, .read none]).f.size) := rfl
  rw [ht] at h2
  simp [Flat.trace, Flat.step, Flat.target, hc, hr, upTo] at h2
  exact h2.1.symm

/-- **C03** In any state of a session on a readable and writable image, seeking to a position `t` beyond
the end succeeds, and afterwards the content is the content before, followed by zeros up to `t`. -/
theorem C03_seek_zero_fills (env : Env) (w : World) (name : String) (mode : Mode) (c : Bytes)
    (s0 : S) (h : Opened env w name mode c s0) (ops : List Op)
    (hr : mode.r = true) (hw : mode.w = true)
    (hopen : ((flatOpen mode c).run ops).closed = false) (t : Nat)
    (ht : (s0.run env ops).f.size < t)
    (hcoll : CollFree env.H ((s0.run env ops).run env
      [.seek 0 .set, .read none]).w.log)
    (hcoll' : CollFree env.H ((s0.run env ops).run env
      [.seek t .set, .seek 0 .set, .read none]).w.log) :
    ∃ b : Bytes, (s0.run env ops).readAll env = .ok (.bytes b) ∧ b.length < t ∧
      ((s0.run env ops).step env (.seek t .set)).2 = .ok (.nat t) ∧
      ((s0.run env ops).run env [.seek t .set]).readAll env =
        .ok (.bytes (b ++ zeros (t - b.length))) := by
  have hlog0 : (s0.run env ops).w.log ⊆ _ := S.run_log env (s0.run env ops) [.seek 0 .set, .read none]
  obtain ⟨hR, _, _, _⟩ := run_ok hcoll ops h.R.1 hlog0
  have hrd : ((flatOpen mode c).run ops).readable = true := by
    have : ∀ (fl : Flat) (ops : List Op), (fl.run ops).readable = fl.readable := by
      intro fl ops
      induction ops generalizing fl with
      | nil => rfl
      | cons op ops ih =>
        show ((fl.step op).1.run ops).readable = _
        rw [ih]
        cases op <;> simp only [Flat.step] <;> (repeat' split) <;> rfl
    rw [this]; exact hr
  have hwr : ((flatOpen mode c).run ops).writable = true := by
    rw [Flat.run_writable]; exact hw
  generalize hfl : (flatOpen mode c).run ops = fl at *
  have hsz : fl.content.length < t := by rw [← hR.rep.size]; exact ht
  have hstep : fl.step (.seek t .set) = ({ fl with pos := t, content := fl.content ++ zeros (t - fl.content.length) }, .ok (.nat t)) := by
    simp only [Flat.step, Flat.target]
    rw [if_neg (by simp [hopen])]
    rw [if_neg (by omega), if_neg (by simp; omega), if_pos hwr]
    simp
  refine ⟨fl.content, readAll_ok hcoll hR hrd hopen (fun _ hx => hx), hsz, ?_, ?_⟩
  · have hl : ((s0.run env ops).step env (.seek t .set)).1.w.log ⊆ _ :=
      S.run_log env ((s0.run env ops).step env (.seek t .set)).1 [.seek 0 .set, .read none]
    rw [(step_ok hcoll' hR (.seek t .set) hl).2.1, hstep]
  · have hl : ((s0.run env ops).step env (.seek t .set)).1.w.log ⊆ _ :=
      S.run_log env ((s0.run env ops).step env (.seek t .set)).1 [.seek 0 .set, .read none]
    have hR1 := (step_ok hcoll' hR (.seek t .set) hl).1
    rw [hstep] at hR1
    exact readAll_ok hcoll' hR1 hrd hopen (fun _ hx => hx)

/-- **C05** Whatever is done with one image, every other stored image keeps its content. -/
theorem C05_other_images_unchanged (env : Env) (w : World) (name : String) (mode : Mode) (c : Bytes)
    (s : S) (h : Opened env w name mode c s) (ops : List Op)
    (hcoll : CollFree env.H (s.run env ops).w.log)
    (other : String) (hne : other ≠ name) (c' : Bytes) (hother : OnDisk env w other c') :
    OnDisk env (s.run env ops).w other c' ∧
    ∀ mode', ∃ s', File.open (s.run env ops).w.fresh other mode' = .ok s' ∧
      ∀ ops', CollFree env.H (s'.run env ops').w.log →
        s'.trace env ops' = (flatOpen mode' c').trace ops' := by
  obtain ⟨hR, _, hext, _⟩ := run_ok hcoll ops h.R.1 (fun _ hx => hx)
  rw [h.R.2.2, h.R.2.1] at hext
  have hd := hother.ext hext hne
  refine ⟨hd, fun mode' => ?_⟩
  have hwok : WOK env (s.run env ops).w.fresh :=
    ⟨hR.rep.base.wok.good, by intro x hx; simp [World.fresh] at hx⟩
  obtain ⟨s', f1, f2, f3, f4⟩ := open_ok hwok
    (show OnDisk env (s.run env ops).w.fresh other _ from hd) mode'
  exact ⟨s', f1, fun ops' hc' => (run_ok hc' ops' f4 (fun _ hx => hx)).2.1⟩

/-- **C06 (partial)** `truncate(n)` with `position ≤ n ≤ size` keeps exactly the first `n` bytes, and
all later operations behave accordingly.  Missing: `n` below the position or above the size,
where the code does not behave like a file (`C06_truncate_false_*`). -/
theorem C06_truncate_partial (env : Env) (w : World) (name : String) (mode : Mode) (c : Bytes)
    (s0 : S) (h : Opened env w name mode c s0) (ops ops' : List Op)
    (hw : mode.w = true) (hopen : ((flatOpen mode c).run ops).closed = false) (n : Nat)
    (hn1 : (s0.run env ops).f.pos ≤ n) (hn2 : n ≤ (s0.run env ops).f.size)
    (hcoll : CollFree env.H (((s0.run env ops).truncate env (some n)).2.run env ops').w.log) :
    ((s0.run env ops).truncate env (some n)).1 = .ok () ∧
    ((s0.run env ops).truncate env (some n)).2.trace env ops' =
      ({ (flatOpen mode c).run ops with
          content := ((flatOpen mode c).run ops).content.take n } : Flat).trace ops' := by
  have hl1 := S.run_log env ((s0.run env ops).truncate env (some n)).2 ops'
  obtain ⟨hR, _, _, _⟩ := run_ok hcoll ops h.R.1
    (fun x hx => hl1 (S.truncate_log env (some n) _ hx))
  have hwr : ((flatOpen mode c).run ops).writable = true := by
    rw [Flat.run_writable]; exact hw
  obtain ⟨s1, e1, e2, e3, e4, e5, _⟩ := truncate_ok hcoll hR.rep (by rw [hR.w]; exact hwr)
    (by rw [hR.closed]; exact hopen) (some n) hn1 (by rw [← hR.rep.size]; exact hn2) hl1
  rw [e1] at hcoll ⊢
  refine ⟨rfl, ?_⟩
  have hR1 := e5.R hR e2 e4
  rw [hR.pos] at hR1
  exact (run_ok hcoll ops' hR1 (fun _ hx => hx)).2.1

/-! ### Concrete cases: the hypotheses are satisfiable -/

/-- An empty repository. -/
def emptyWorld : World := { chunks := [], metas := [], seen := [], force := false, tick := 0, log := [] }

theorem emptyWorld_ok (env : Env) : WOK env emptyWorld :=
  ⟨by intro h x hx; simp [emptyWorld] at hx, by intro h hh; simp [emptyWorld] at hh⟩

/-- A new image "a" opened read/write. -/
def newImage : S :=
  { f := { name := "a", mode := ⟨true, true, false⟩, closed := false, pos := 0, size := 0,
           mapping := [], chunks := [], stats := [] },
    w := emptyWorld }

theorem newImage_opened : Opened Test.env emptyWorld "a" ⟨true, true, false⟩ [] newImage :=
  ⟨emptyWorld_ok _, .inr ⟨rfl, rfl⟩, rfl⟩

/-- Test (C01): a session over several chunks with eviction-free caching; the theorem applies. -/
example : newImage.trace Test.env [.write [1, 2, 3, 4, 5, 6], .seek 1 .set, .read (some 4), .seek 9 .set,
      .truncate, .close] =
    [(.ok .unit, 6, 6), (.ok (.nat 1), 1, 6), (.ok (.bytes [2, 3, 4, 5]), 5, 6), (.ok (.nat 9), 9, 9),
      (.ok .unit, 9, 9), (.ok .unit, 9, 9)] := by
  rw [C01_chunked_refines_flat Test.env _ _ _ _ _ newImage_opened _ (Test.collFree _)]
  rfl

/-- Test (C02, C03, C06): the hypotheses hold after writing ten bytes. -/
theorem exTen_bounds : ((flatOpen ⟨true, true, false⟩ []).run [.write [1, 2, 3, 4, 5, 6, 7, 8, 9, 10], .seek 2 .set]).closed = false ∧
    (newImage.run Test.env [.write [1, 2, 3, 4, 5, 6, 7, 8, 9, 10], .seek 2 .set]).f.size < 20 ∧
    (newImage.run Test.env [.write [1, 2, 3, 4, 5, 6, 7, 8, 9, 10], .seek 2 .set]).f.pos ≤ 5 ∧
    5 ≤ (newImage.run Test.env [.write [1, 2, 3, 4, 5, 6, 7, 8, 9, 10], .seek 2 .set]).f.size := by
  have h := (run_ok (Test.collFree _) [.write [1, 2, 3, 4, 5, 6, 7, 8, 9, 10], .seek 2 .set]
    newImage_opened.R.1 (fun _ hx => hx)).1
  have hs := h.rep.size
  have hp := h.pos
  have e1 : ((flatOpen ⟨true, true, false⟩ []).run [.write [1, 2, 3, 4, 5, 6, 7, 8, 9, 10], .seek 2 .set]).content.length = 10 := rfl
  have e2 : ((flatOpen ⟨true, true, false⟩ []).run [.write [1, 2, 3, 4, 5, 6, 7, 8, 9, 10], .seek 2 .set]).pos = 2 := rfl
  rw [e1] at hs; rw [e2] at hp
  refine ⟨rfl, ?_, ?_, ?_⟩ <;> omega

/-- A repository with one stored image "b" of six bytes in two chunks. -/
def storedWorld : World :=
  { chunks := [(Test.hash [1, 2, 3, 4], some [1, 2, 3, 4]), (Test.hash [5, 6], some [5, 6])],
    metas := [("b", some ⟨[(0, Test.hash [1, 2, 3, 4]), (1, Test.hash [5, 6])], 6⟩)],
    seen := [], force := false, tick := 0, log := [[1, 2, 3, 4], [5, 6]] }

theorem storedWorld_ok : WOK Test.env storedWorld := by
  refine ⟨?_, by intro h hh; simp [storedWorld] at hh⟩
  intro h x hx
  have hm := Dict.mem_of_get? hx
  simp only [storedWorld, List.mem_cons, Prod.mk.injEq, List.not_mem_nil, or_false] at hm
  rcases hm with ⟨rfl, rfl⟩ | ⟨rfl, rfl⟩
  · exact ⟨_, rfl, rfl, by simp [storedWorld], by decide⟩
  · exact ⟨_, rfl, rfl, by simp [storedWorld], by decide⟩

theorem storedWorld_b : OnDisk Test.env storedWorld "b" [1, 2, 3, 4, 5, 6] := by
  refine ⟨⟨[(0, Test.hash [1, 2, 3, 4]), (1, Test.hash [5, 6])], 6⟩, rfl, rfl, ?_, ?_⟩
  · intro h hm
    simp only [Dict.values, List.map_cons, List.map_nil, List.mem_cons, List.not_mem_nil, or_false] at hm
    rcases hm with rfl | rfl
    · exact ⟨[1, 2, 3, 4], by decide⟩
    · exact ⟨[5, 6], by decide⟩
  · intro p hp
    have : p = 0 ∨ p = 1 ∨ p = 2 ∨ p = 3 ∨ p = 4 ∨ p = 5 := by
      have : p < 6 := hp
      omega
    rcases this with rfl | rfl | rfl | rfl | rfl | rfl
    · exact ⟨_, [1, 2, 3, 4], rfl, by decide, rfl, rfl⟩
    · exact ⟨_, [1, 2, 3, 4], rfl, by decide, rfl, rfl⟩
    · exact ⟨_, [1, 2, 3, 4], rfl, by decide, rfl, rfl⟩
    · exact ⟨_, [1, 2, 3, 4], rfl, by decide, rfl, rfl⟩
    · exact ⟨_, [5, 6], rfl, by decide, rfl, rfl⟩
    · exact ⟨_, [5, 6], rfl, by decide, rfl, rfl⟩

/-- Test (C05, C01, C02): both a new image next to a stored one and the stored one can be opened. -/
example : (∃ s, Opened Test.env storedWorld "a" ⟨false, true, false⟩ [] s) ∧
    (∃ s, Opened Test.env storedWorld "b" ⟨true, true, true⟩ [1, 2, 3, 4, 5, 6] s) :=
  ⟨⟨_, storedWorld_ok, .inr ⟨rfl, rfl⟩, rfl⟩, ⟨_, storedWorld_ok, .inl storedWorld_b, rfl⟩⟩

/-! ### C06: what `truncate(size)` gets wrong -/

/-- **C06 is false (shrinking below the position)**: after `write(1,2,3,4); truncate(1); write(9)` the
image contains the stale bytes 2,3,4 where a file has zeros. -/
theorem C06_truncate_false_stale :
    (((newImage.run Test.env [.write [1, 2, 3, 4]]).truncate Test.env (some 1)).2.run Test.env
        [.write [9]]).readAll Test.env = .ok (.bytes [1, 2, 3, 4, 9]) := by
  decide +kernel

/-- **C06 is false (growing)**: after `write(1,2,3,4); truncate(8)` reading fails. -/
theorem C06_truncate_false_grow :
    ((newImage.run Test.env [.write [1, 2, 3, 4]]).truncate Test.env (some 8)).2.readAll Test.env =
      .error .value := by
  decide +kernel

/-! ### Every theorem of this file applied to a concrete image -/

/-- The operations of the cases below. -/
def exTen : List Op := [.write [1, 2, 3, 4, 5, 6, 7, 8, 9, 10], .seek 2 .set]

/-- C01_modes: the image written with mode `"r+"`. -/
example := C01_modes Test.env emptyWorld "a" "r+" [] newImage newImage_opened exTen (Test.collFree _)

/-- C02_close_reopen: ten bytes, closed and opened again. -/
example := C02_close_reopen Test.env _ _ _ _ _ newImage_opened exTen rfl exTen_bounds.1 (Test.collFree _)

/-- C03_seek_zero_fills: ten bytes, then a seek to 20. -/
example := C03_seek_zero_fills Test.env _ _ _ _ _ newImage_opened exTen rfl rfl exTen_bounds.1 20 exTen_bounds.2.1
  (Test.collFree _) (Test.collFree _)

/-- C05_other_images_unchanged: image `a` is written while `b` holds six bytes. -/
example (s : S) (h : Opened Test.env storedWorld "a" ⟨false, true, false⟩ [] s) :=
  C05_other_images_unchanged Test.env _ _ _ _ s h exTen (Test.collFree _) "b" (by decide) _ storedWorld_b

/-- C06_truncate_partial: ten bytes cut to five, and read. -/
example := C06_truncate_partial Test.env _ _ _ _ _ newImage_opened exTen [.seek 0 .set, .read none] rfl exTen_bounds.1 5
  exTen_bounds.2.2.1 exTen_bounds.2.2.2 (Test.collFree _)

end Verif.Chunked
