import Verif.Proofs.Damage
import Verif.Props.Chunked
import Verif.Proofs.ReadOnlyWorld
/-!
# Property C04: sessions on an image while the store is damaged

An image is opened, changed and closed by one process after the other while chunk files are lost or damaged.
-/
namespace Verif.Chunked
open Verif Verif.Spec Verif.Backup

/-! ## Specification -/

/-- Damage to chunk files: each one is as before, or is lost, or cannot be read, or has a content that does not have the hash it is named
after. -/
def Decayed (env : Env) (old new : Dict Hash (Option Bytes)) : Prop :=
  ∀ h d, new.get? h = some (some d) → env.H d = h → old.get? h = some (some d)

/-- A session: operations with damage at any time.  The observations are the result of each operation, the position and the size. -/
inductive Session (env : Env) : S → List Op → List (Except PyErr Out × Nat × Nat) → S → Prop
  | nil (s : S) : Session env s [] [] s
  | op {s s' : S} {ops : List Op} {tr : List (Except PyErr Out × Nat × Nat)} (o : Op)
      (h : Session env (s.step env o).1 ops tr s') :
      Session env s (o :: ops) (((s.step env o).2, (s.step env o).1.f.pos, (s.step env o).1.f.size) :: tr) s'
  | damage {s s' : S} {ops : List Op} {tr : List (Except PyErr Out × Nat × Nat)} (chunks : Dict Hash (Option Bytes))
      (hd : Decayed env s.w.chunks chunks) (h : Session env { s with w := { s.w with chunks } } ops tr s') : Session env s ops tr s'

/-- No operation failed. -/
def NoError (tr : List (Except PyErr Out × Nat × Nat)) : Prop := ∀ x ∈ tr, ∃ a, x.1 = .ok a

/-- The observations of one session. -/
abbrev Seen := List (Except PyErr Out × Nat × Nat)

/-- Sessions of one process after the other on one image.  Each one opens the image, runs operations and closes it; chunk files may be
damaged at any time. -/
inductive Sessions (env : Env) (name : String) : World → List (Mode × List Op) → List Seen → World → Prop
  | nil (w : World) : Sessions env name w [] [] w
  | cons {w w' : World} {s s' : S} {mode : Mode} {ops : List Op} {tr : Seen} {l : List (Mode × List Op)} {trs : List Seen}
      (hopen : File.open w name mode = .ok s) (hs : Session env s (ops ++ [.close]) tr s') (h : Sessions env name s'.w.fresh l trs w') :
      Sessions env name w ((mode, ops) :: l) (tr :: trs) w'

/-- The observations of such sessions on a plain file with content `c`. -/
def flatSessions (c : Bytes) : List (Mode × List Op) → List Seen
  | [] => []
  | (mode, ops) :: l => (flatOpen mode c).trace (ops ++ [.close]) :: flatSessions ((flatOpen mode c).run ops).content l

/-! ## Proofs -/

theorem Session.log {env : Env} {s s' : S} {ops : List Op} {tr : List (Except PyErr Out × Nat × Nat)} (h : Session env s ops tr s') :
    s.w.log ⊆ s'.w.log := by
  induction h with
  | nil s => exact fun _ h => h
  | op o _ ih => exact fun x hx => ih (S.step_log env _ o hx)
  | damage ch _ _ ih => exact ih

theorem okS_damage {env : Env} {L : List Bytes} {s : S} (h : OkS env L s) {ch : Dict Hash (Option Bytes)} (hd : Decayed env s.w.chunks ch) :
    OkS env L { s with w := { s.w with chunks := ch } } :=
  ⟨⟨fun k d h1 h2 => h.w.chunks k d (hd k d h1 h2) h2, h.w.seen, h.w.small⟩, h.small⟩

/-- As long as nothing fails, a session with damage is the session on the undamaged image. -/
theorem session_ideal {env : Env} {L : List Bytes} (hL : CollFree env.H L) {s s' : S} {ops : List Op}
    {tr : List (Except PyErr Out × Nat × Nat)} (h : Session env s ops tr s') (hok : OkS env L s) (hlog : s'.w.log ⊆ L) (hn : NoError tr) :
    OkS env L s' ∧ s'.f.name = s.f.name ∧ (idealS env L s).trace env ops = tr ∧ (idealS env L s).run env ops = idealS env L s' := by
  induction h with
  | nil s => exact ⟨hok, rfl, rfl, rfl⟩
  | @op s s' ops tr o h ih =>
    have hc := step_com hL o hok (fun x hx => hlog (h.log hx))
    obtain ⟨a, ha⟩ := hn _ (List.mem_cons_self)
    have e := hc.com a ha
    obtain ⟨i1, i2, i3, i4⟩ := ih hc.ok hlog (fun x hx => hn x (List.mem_cons_of_mem _ hx))
    refine ⟨i1, i2.trans hc.frame.name, ?_, ?_⟩
    · show (((idealS env L s).step env o).2, ((idealS env L s).step env o).1.f.pos, ((idealS env L s).step env o).1.f.size) ::
        S.trace env ((idealS env L s).step env o).1 ops = _
      rw [e, i3, ← ha]
      rfl
    · show S.run env ((idealS env L s).step env o).1 ops = _
      rw [e]
      exact i4
  | damage ch hd _ ih => exact ih (okS_damage hok hd) hlog hn

theorem okW_of_sound {env : Env} {L : List Bytes} {w : World} (hw : WOK env w) (hs : ∀ d ∈ w.log, d.length ≤ env.cs) (hL : w.log ⊆ L) :
    OkW env L w := by
  refine ⟨?_, ?_, hs⟩
  · intro h d h1 h2
    obtain ⟨d', e1, e2, e3, e4⟩ := hw.good h _ h1
    cases e1
    exact ⟨hL e3, e4⟩
  · intro h hh
    obtain ⟨d, hd⟩ := hw.seen h hh
    obtain ⟨d', e1, e2, e3, e4⟩ := hw.good h _ hd
    cases e1
    exact ⟨d, hL e3, e4, e2⟩

theorem onDisk_to_ideal {env : Env} {L : List Bytes} (hL : CollFree env.H L) {w : World} (hw : WOK env w) (hlog : w.log ⊆ L) {n : String}
    {c : Bytes} (h : OnDisk env w n c) : OnDisk env (ideal env L w) n c := by
  have key : ∀ k d, w.chunks.get? k = some (some d) → (table env L).get? k = some (some d) := by
    intro k d hk
    obtain ⟨d', e1, e2, e3, e4⟩ := hw.good k _ hk
    cases e1
    rw [← e2]
    exact table_get hL (hlog e3) e4
  obtain ⟨m, m1, m2, m3, m4⟩ := h
  refine ⟨m, m1, m2, ?_, ?_⟩
  · intro k hk
    obtain ⟨d, hd⟩ := m3 k hk
    exact ⟨d, key k d hd⟩
  · intro p hp
    obtain ⟨k, d, h1, h2, h3, h4⟩ := m4 p hp
    exact ⟨k, d, h1, key k d h2, h3, h4⟩

theorem CollFree.append_self {H : Bytes → Hash} {L l : List Bytes} (h : CollFree H L) (hl : l ⊆ L) : CollFree H (l ++ L) :=
  h.mono (fun _ hx => (List.mem_append.1 hx).elim (fun h => hl h) (fun h => h))

theorem open_world {w : World} {n : String} {m : Mode} {s : S} (hs : File.open w n m = .ok s) : s.w = w := by
  unfold File.open at hs
  split at hs
  · split at hs
    · cases hs
    · cases hs; rfl
  · cases hs
  · cases hs; rfl

theorem Sessions.log {env : Env} {name : String} {w w' : World} {l : List (Mode × List Op)} {trs : List Seen}
    (h : Sessions env name w l trs w') : w.log ⊆ w'.log := by
  induction h with
  | nil w => exact fun _ h => h
  | cons hopen hs _ ih =>
    intro x hx
    rw [← open_world hopen] at hx
    exact ih (hs.log hx)

theorem flat_step_writable (fl : Flat) (o : Op) : (fl.step o).1.writable = fl.writable := by
  cases o <;> simp only [Flat.step] <;> repeat' (first | rfl | split)

theorem flat_run_writable (ops : List Op) : ∀ fl : Flat, (fl.run ops).writable = fl.writable := by
  induction ops with
  | nil => intro fl; rfl
  | cons o ops ih => intro fl; exact (ih (fl.step o).1).trans (flat_step_writable fl o)

theorem flat_step_content {fl : Flat} (h : fl.writable = false) (o : Op) : (fl.step o).1.content = fl.content := by
  cases o <;> simp only [Flat.step, h] <;> repeat' (first | rfl | split | contradiction)
  all_goals simp_all

theorem flat_run_content (ops : List Op) : ∀ {fl : Flat}, fl.writable = false → (fl.run ops).content = fl.content := by
  induction ops with
  | nil => intro fl _; rfl
  | cons o ops ih =>
    intro fl h
    exact (ih ((flat_step_writable fl o).trans h)).trans (flat_step_content h o)

theorem flat_trace_append (a b : List Op) : ∀ fl : Flat, fl.trace (a ++ b) = fl.trace a ++ (fl.run a).trace b := by
  induction a with
  | nil => intro fl; rfl
  | cons o a ih =>
    intro fl
    show _ :: Flat.trace (fl.step o).1 (a ++ b) = _
    rw [ih]
    rfl

theorem flat_open_till_end {fl : Flat} {ops : List Op} (h : NoError (fl.trace (ops ++ [.close]))) : (fl.run ops).closed = false := by
  rw [flat_trace_append] at h
  cases hc : (fl.run ops).closed with
  | false => rfl
  | true =>
    obtain ⟨a, ha⟩ := h _ (List.mem_append_right _ (List.mem_cons_self))
    simp only [Flat.step, hc, if_true] at ha
    cases ha

theorem run_closed {env : Env} {L : List Bytes} (hL : CollFree env.H L) {s : S} {fl : Flat} (h : R env s fl) (ops : List Op)
    (hcl : (fl.run ops).closed = false) (hw : fl.writable = true) (hlog : (s.run env (ops ++ [.close])).w.log ⊆ L) :
    OnDisk env (s.run env (ops ++ [.close])).w s.f.name (fl.run ops).content := by
  have e : s.run env (ops ++ [.close]) = ((s.run env ops).close env).2 := by
    simp only [S.run, List.foldl_append, List.foldl_cons, List.foldl_nil, S.step]
    generalize List.foldl (fun s op => (S.step env s op).1) s ops = t
    generalize t.close env = p
    obtain ⟨a, b⟩ := p
    cases a <;> rfl
  rw [e] at hlog ⊢
  obtain ⟨h1, _, _, h4⟩ := run_ok hL ops h (fun x hx => hlog (S.close_log env _ hx))
  obtain ⟨s', e1, _, e3, _⟩ := close_ok hL h1 ((flat_run_writable ops fl).trans hw) hcl hlog
  rw [e1, ← h4]
  exact e3

theorem sessions_flat {env : Env} {L : List Bytes} (hL : CollFree env.H L) {name : String} {w w' : World} {l : List (Mode × List Op)}
    {trs : List Seen} (h : Sessions env name w l trs w') (hlog : w'.log ⊆ L) (hn : ∀ tr ∈ trs, NoError tr) :
    ∀ c : Bytes, OkW env L w → (OnDisk env (ideal env L w) name c ∨ (w.metas.get? name = none ∧ c = [])) → trs = flatSessions c l := by
  induction h with
  | nil w => intro c _ _; rfl
  | @cons w w' s s' mode ops tr l trs hopen hs hrest ih =>
    intro c hok hc
    obtain ⟨hokS, hname, hw⟩ := open_okS hok hopen
    have hlog' : s'.w.log ⊆ L := fun x hx => hlog (hrest.log hx)
    have hnt : NoError tr := hn _ List.mem_cons_self
    obtain ⟨i1, i2, i3, i4⟩ := session_ideal hL hs hokS hlog' hnt
    have hopened : Opened env (ideal env L w) name mode c (idealS env L s) := by
      refine ⟨hok.wok hL, hc, ?_⟩
      rw [open_ideal, hopen]
    obtain ⟨r1, r2, r3⟩ := hopened.R
    have hlogI : ((idealS env L s).run env (ops ++ [.close])).w.log ⊆ L := by
      rw [i4]
      intro x hx
      exact (List.mem_append.1 hx).elim (fun h => hlog' h) (fun h => h)
    obtain ⟨q1, q2, q3, q4⟩ := run_ok hL (ops ++ [.close]) r1 hlogI
    have etr : tr = (flatOpen mode c).trace (ops ++ [.close]) := by rw [← i3, q2]
    have hcl : ((flatOpen mode c).run ops).closed = false := flat_open_till_end (etr ▸ hnt)
    have hnext : OnDisk env (ideal env L s'.w.fresh) name ((flatOpen mode c).run ops).content := by
      cases hm : mode.w with
      | true =>
        have := run_closed hL r1 ops hcl hm hlogI
        rw [i4, r3] at this
        exact this
      | false =>
        rw [flat_run_content ops (show (flatOpen mode c).writable = false from hm)]
        rcases hc with hd | ⟨hnone, _⟩
        · obtain ⟨k1, k2⟩ := Quiet.run (env := env) (ops ++ [.close]) (Quiet.open hm hopened.opened).1
          rw [i4] at k2
          have hmet : s'.w.metas = w.metas := by
            have := congrArg World.metas k2
            rw [r2] at this
            exact this
          obtain ⟨m, m1, m2, m3, m4⟩ := hd
          exact ⟨m, (by show s'.w.metas.get? name = _; rw [hmet]; exact m1), m2, m3, m4⟩
        · unfold File.open at hopen
          rw [hnone] at hopen
          simp [hm] at hopen
    show tr :: trs = _ :: _
    rw [etr, ih hlog (fun t ht => hn t (List.mem_cons_of_mem _ ht)) _ ⟨i1.w.chunks, fun h hh => (by cases hh), i1.w.small⟩ (.inl hnext)]

/-- **C04** Any number of sessions of one process after the other, for reading or for writing, with any damage to chunk files at any time:
as long as no operation fails, everything read, all positions and sizes are those of the same sessions on a plain file with the content of
the undamaged image. -/
theorem C04_sessions (env : Env) (w w' : World) (name : String) (c : Bytes) (hw : WOK env w)
    (hsmall : ∀ d ∈ w.log, d.length ≤ env.cs) (hc : OnDisk env w name c ∨ (w.metas.get? name = none ∧ c = []))
    (l : List (Mode × List Op)) (trs : List Seen) (hs : Sessions env name w l trs w') (hn : ∀ tr ∈ trs, NoError tr)
    (hcoll : CollFree env.H w'.log) : trs = flatSessions c l :=
  sessions_flat hcoll hs (fun _ h => h) hn c (okW_of_sound hw hsmall hs.log)
    (hc.elim (fun h => .inl (onDisk_to_ideal hcoll hw hs.log h)) .inr)

/-! ## Examples -/

/-- A chunk of the stored image is overwritten with something else while the image is open for writing. -/
def exRot : Dict Hash (Option Bytes) := [(Test.hash [1, 2, 3, 4], some [1, 2, 3, 4]), (Test.hash [5, 6], some [5, 7])]

theorem exRot_decayed : Decayed Test.env storedWorld.chunks exRot := by
  intro h d h1 h2
  have hm := Dict.mem_of_get? h1
  simp only [exRot, List.mem_cons, Prod.mk.injEq, List.not_mem_nil, or_false, Option.some.injEq] at hm
  rcases hm with ⟨rfl, rfl⟩ | ⟨rfl, rfl⟩
  · decide +kernel
  · exact absurd h2 (by decide +kernel)

/-- The image is changed in its first chunk while the second one is damaged, and read by the next process. -/
def exSessions : List (Mode × List Op) :=
  [(⟨true, true, false⟩, [.seek 1 .set, .write [9]]), (⟨true, false, false⟩, [.read (some 3)])]

/-- Without damage the observations of a session are those of its operations. -/
theorem session_trace (env : Env) (ops : List Op) : ∀ s : S, Session env s ops (s.trace env ops) (s.run env ops) := by
  induction ops with
  | nil => exact fun s => .nil s
  | cons o ops ih => exact fun s => .op o (ih _)

/-- Sessions without further damage, computed. -/
def plainRun (env : Env) (name : String) (w : World) : List (Mode × List Op) → Option (List Seen)
  | [] => some []
  | (mode, ops) :: l =>
    match File.open w name mode with
    | .error _ => none
    | .ok s => (plainRun env name (s.run env (ops ++ [.close])).w.fresh l).map (s.trace env (ops ++ [.close]) :: ·)

theorem plainRun_sessions (env : Env) (name : String) (l : List (Mode × List Op)) : ∀ (w : World) (trs : List Seen),
    plainRun env name w l = some trs → ∃ w', Sessions env name w l trs w' := by
  induction l with
  | nil => intro w trs h; cases h; exact ⟨w, .nil w⟩
  | cons p l ih =>
    obtain ⟨mode, ops⟩ := p
    intro w trs h
    simp only [plainRun] at h
    split at h
    · cases h
    · next s hs =>
      obtain ⟨trs', h1, rfl⟩ := Option.map_eq_some_iff.1 h
      obtain ⟨w', hw'⟩ := ih _ _ h1
      exact ⟨w', .cons hs (session_trace env _ _) hw'⟩

theorem exSessions_run : ∃ w', Sessions Test.env "b" storedWorld exSessions
    [[(.ok (.nat 1), 1, 6), (.ok .unit, 2, 6), (.ok .unit, 2, 6)], [(.ok (.bytes [1, 9, 3]), 3, 6), (.ok .unit, 3, 6)]] w' := by
  obtain ⟨s, hs⟩ : ∃ s, File.open storedWorld "b" ⟨true, true, false⟩ = .ok s := ⟨_, rfl⟩
  have hc : s.w.chunks = storedWorld.chunks := by rw [open_world hs]
  have hr : plainRun Test.env "b" (S.run Test.env { s with w := { s.w with chunks := exRot } } [.seek 1 .set, .write [9], .close]).w.fresh
      [(⟨true, false, false⟩, [.read (some 3)])] = some [[(.ok (.bytes [1, 9, 3]), 3, 6), (.ok .unit, 3, 6)]] := by
    cases hs
    decide +kernel
  obtain ⟨w', hw'⟩ := plainRun_sessions _ _ _ _ _ hr
  have ht : S.trace Test.env { s with w := { s.w with chunks := exRot } } [.seek 1 .set, .write [9], .close] =
      [(.ok (.nat 1), 1, 6), (.ok .unit, 2, 6), (.ok .unit, 2, 6)] := by
    cases hs
    decide +kernel
  refine ⟨w', .cons hs (.damage exRot (hc ▸ exRot_decayed) ?_) hw'⟩
  rw [← ht]
  exact session_trace _ _ _

/-- Test (C04): the sessions of the example, with damage in the middle, are as on a plain file. -/
example := exSessions_run.elim fun w' h =>
  C04_sessions Test.env storedWorld w' "b" [1, 2, 3, 4, 5, 6] storedWorld_ok (by decide) (.inl storedWorld_b) _ _ h
    (by intro tr ht x hx; simp only [List.mem_cons, List.not_mem_nil, or_false] at ht; rcases ht with rfl | rfl <;>
        (simp only [List.mem_cons, List.not_mem_nil, or_false] at hx; rcases hx with rfl | rfl | rfl <;> exact ⟨_, rfl⟩)) (Test.collFree _)

end Verif.Chunked
