import Verif.Props.Damage
/-!
# C90: what a failed restore leaves behind

A restore that fails half-way (damaged chunk) has written a part of the right image and nothing else.
-/
namespace Verif.Backup
open Verif Verif.Chunked Verif.Spec Verif.Rbd Verif.Repo Verif.Files Verif.Diff

theorem stdoutLoop_extends (env : Env) (fuel : Nat) : ∀ (s : S) (out : Bytes), out <+: (stdoutLoop env fuel s out).2.2 := by
  induction fuel with
  | zero => intro s out; exact List.prefix_refl _
  | succ n ih =>
    intro s out
    simp only [stdoutLoop]
    generalize readS env env.blk s = g
    obtain ⟨g1, g2⟩ := g
    cases g1 with
    | error e => exact List.prefix_refl _
    | ok chunk =>
      dsimp only
      split
      · exact List.prefix_refl _
      · exact (List.prefix_append _ _).trans (ih g2 (out ++ chunk))

theorem stdoutLoop_prefix {env : Env} {L : List Bytes} (hL : CollFree env.H L) (fuel : Nat) :
    ∀ (s : S) (out : Bytes), OkS env L s → Quiet s → s.w.log ⊆ L →
      (stdoutLoop env fuel s out).2.2 <+: (stdoutLoop env fuel (idealS env L s) out).2.2 := by
  induction fuel with
  | zero => intro s out _ _ _; exact List.prefix_refl _
  | succ n ih =>
    intro s out h hq hl
    unfold stdoutLoop readS
    obtain ⟨q1, q2⟩ := hq.read (env := env) (env.blk : Int)
    have hlog : (s.read env (env.blk : Int)).2.w.log ⊆ L := by rw [Ticked.log q2]; exact hl
    obtain ⟨c1, c2, c3⟩ := read_com hL (env.blk : Int) h hlog
    generalize s.read env (env.blk : Int) = g at *
    obtain ⟨g1, g2⟩ := g
    cases g1 with
    | error e =>
      have := stdoutLoop_extends env (n + 1) (idealS env L s) out
      unfold stdoutLoop readS at this
      exact this
    | ok chunk =>
      rw [c3 chunk rfl]
      dsimp only at c1 q1 hlog ⊢
      by_cases hc : chunk = []
      · rw [if_pos hc, if_pos hc]
      · rw [if_neg hc, if_neg hc]; exact ih g2 _ c1 q1 hlog

theorem restoreOut_prefix {env : Env} {L : List Bytes} (hL : CollFree env.H L) {w : World} (h : OkW env L w) (hl : w.log ⊆ L) (r : Rev) :
    (restoreOut env w r).2 <+: (restoreOut env (ideal env L w) r).2 := by
  unfold restoreOut
  rw [open_ideal]
  cases hf : File.open w r.uuid rb with
  | error e => exact List.prefix_refl _
  | ok s =>
    dsimp only
    obtain ⟨o1, _, o3⟩ := open_okS h hf
    obtain ⟨q1, _⟩ := Quiet.open (mode := rb) rfl hf
    unfold restoreStdout
    have e : (idealS env L s).f = s.f := rfl
    rw [e]
    exact stdoutLoop_prefix hL (s.f.size + 1) s [] o1 q1 (by rw [o3]; exact hl)

/-- The first `k` bytes of the image over the old content. -/
def partly (c old : Bytes) (k : Nat) : Bytes := c.take k ++ old.drop k

theorem partly_write {c old : Bytes} {p n : Nat} (hp : p ≤ c.length) :
    writeAt (partly c old p) p ((c.drop p).take n) = partly c old (p + ((c.drop p).take n).length) := by
  by_cases hd : (c.drop p).take n = []
  · rw [hd]; simp [writeAt]
  · have hlen : (c.take p).length = p := by simp [hp]
    simp only [writeAt, hd, if_false, partly]
    rw [List.take_append_of_le_length (by rw [hlen]), List.take_of_length_le (by rw [hlen])]
    have hz : p - (c.take p ++ old.drop p).length = 0 := by
      rw [List.length_append, hlen]; omega
    rw [hz]
    simp only [zeros, List.replicate_zero, List.append_nil]
    rw [List.drop_append, List.drop_eq_nil_of_le (as := c.take p) (by rw [hlen]; omega), List.nil_append, hlen, List.drop_drop]
    have h1 : c.take p ++ (c.drop p).take n = c.take (p + ((c.drop p).take n).length) := by
      rw [List.take_add]
      congr 1
      rw [List.length_take, List.take_eq_take_iff]
      simp
    rw [h1]
    congr 2
    omega

theorem copyLoop_partly {env : Env} {L : List Bytes} (hL : CollFree env.H L) {w : World} (hw : CollFree env.H w.log) (c old : Bytes)
    (fuel : Nat) : ∀ (s : S) (t : PFile) (pos : Nat), OkS env L s → Quiet s → s.w.log ⊆ L → Rd env w (idealS env L s) c pos →
      pos ≤ c.length → t = ⟨partly c old pos, pos⟩ →
      ∃ k, (copyLoop env fuel s t).2.2.content = partly c old k := by
  induction fuel with
  | zero => intro s t pos _ _ _ _ _ ht; exact ⟨pos, by rw [ht]; rfl⟩
  | succ n ih =>
    intro s t pos h hq hl hr hp ht
    unfold copyLoop readS
    obtain ⟨q1, q2⟩ := hq.read (env := env) (env.blk : Int)
    have hlog : (s.read env (env.blk : Int)).2.w.log ⊆ L := by rw [Ticked.log q2]; exact hl
    obtain ⟨c1, c2, c3⟩ := read_com hL (env.blk : Int) h hlog
    obtain ⟨s1, e1, e2⟩ := hr.read hw env.blk
    unfold readS at e1
    generalize s.read env (env.blk : Int) = g at *
    obtain ⟨g1, g2⟩ := g
    cases g1 with
    | error e => exact ⟨pos, by rw [ht]⟩
    | ok chunk =>
      have c3 := c3 chunk rfl
      rw [e1] at c3
      simp only [Prod.mk.injEq, Except.ok.injEq] at c3
      obtain ⟨rfl, rfl⟩ := c3
      dsimp only at c1 q1 hlog ⊢
      split
      · exact ⟨pos, by rw [ht]⟩
      · refine ih g2 _ _ c1 q1 hlog e2 ?_ ?_
        · simp; omega
        · rw [ht]
          simp only [PFile.write]
          rw [partly_write hp]

theorem copy_partly {env : Env} {L : List Bytes} (hL : CollFree env.H L) {w : World} (hw : CollFree env.H w.log) {s : S} {c : Bytes} {pos : Nat}
    (h : OkS env L s) (hq : Quiet s) (hl : s.w.log ⊆ L) (hr : Rd env w (idealS env L s) c pos) (old : Bytes) {e : PyErr}
    (he : (copy env s ⟨old, 0⟩).1 = .error e) : ∃ k, (copy env s ⟨old, 0⟩).2.2.content = partly c old k := by
  have h0 : partly c old 0 = old := by simp [partly]
  unfold copy at he ⊢
  obtain ⟨q1, q2⟩ := hq.seek (env := env) 0 .end_
  have hlog : (s.seek env 0 .end_).2.w.log ⊆ L := by rw [Ticked.log q2]; exact hl
  obtain ⟨c1, c2, c3⟩ := seek_com hL 0 .end_ h hlog
  obtain ⟨s1, e1, e2⟩ := hr.seek hw 0 .end_ c.length (by simp [Flat.target]) (Nat.le_refl _)
  generalize s.seek env 0 .end_ = g at *
  obtain ⟨g1, g2⟩ := g
  cases g1 with
  | error e => exact ⟨0, by rw [h0]⟩
  | ok p =>
    have c3 := c3 p rfl
    rw [e1] at c3
    simp only [Prod.mk.injEq, Except.ok.injEq] at c3
    obtain ⟨rfl, rfl⟩ := c3
    dsimp only at he c1 q1 hlog ⊢
    obtain ⟨q3, q4⟩ := q1.seek (env := env) 0 .set
    have hlog2 : (g2.seek env 0 .set).2.w.log ⊆ L := by rw [Ticked.log q4]; exact hlog
    obtain ⟨d1, d2, d3⟩ := seek_com hL 0 .set c1 hlog2
    obtain ⟨s2, f1, f2⟩ := e2.seek hw 0 .set 0 (by simp [Flat.target]) (Nat.zero_le _)
    generalize g2.seek env 0 .set = k at *
    obtain ⟨k1, k2⟩ := k
    cases k1 with
    | error e => exact ⟨0, by rw [h0]⟩
    | ok p2 =>
      have d3 := d3 p2 rfl
      rw [f1] at d3
      simp only [Prod.mk.injEq, Except.ok.injEq] at d3
      obtain ⟨rfl, rfl⟩ := d3
      dsimp only at he d1 q3 hlog2 ⊢
      have hcl := copyLoop_partly hL hw c old (k2.f.size + 1) k2 ⟨old, 0⟩ 0 d1 q3 hlog2 f2 (Nat.zero_le _) (by rw [h0])
      generalize copyLoop env (k2.f.size + 1) k2 ⟨old, 0⟩ = z at *
      obtain ⟨z1, z2, z3⟩ := z
      cases z1 with
      | error e => exact hcl
      | ok u => cases he

/-- **C90** Whatever is damaged: a restore to a file either succeeds with exactly the image, or reports an error, and then the
target is untouched or starts with a part of the image followed by what was there before. -/
theorem C90_failed_restore (env : Env) (s0 s : Sys) (h0 : Initial s0) (hlog : s0.src.w.log = []) (hs : Damaged env s0 s)
    (hcoll : CollFree env.H s.src.w.log) (u : String) (r : Rev) (hr : onDisk s.src.repo.files u = some r) (hl : r.server = "")
    (hc : r.clean = true) :
    ∃ c, s.ceph.taken.get? r.uuid = some c ∧ ∀ target,
      restore env s.connect.src.w r target = (.ok (), some c) ∨
      ∃ e, (restore env s.connect.src.w r target).1 = .error e ∧
        ((restore env s.connect.src.w r target).2 = target ∨
          ∃ k, (restore env s.connect.src.w r target).2 = some (c.take k ++ (target.getD []).drop k)) := by
  obtain ⟨hok, c, c1, c2⟩ := restore_kept h0 hlog hs hcoll hr hl hc
  refine ⟨c, c1, fun target => ?_⟩
  rcases C74_restore_file env s0 s h0 hlog hs hcoll u r hr hl hc target with ⟨e, he⟩ | ⟨c', c1', hx⟩
  · refine .inr ⟨e, he, ?_⟩
    unfold restore at he ⊢
    cases hf : File.open s.connect.src.w r.uuid rb with
    | error e => exact .inl rfl
    | ok f =>
      right
      rw [hf] at he
      dsimp only at he ⊢
      have hm : ∃ m, s.src.w.metas.get? r.uuid = some (some m) := by
        unfold File.open at hf
        have e : s.connect.src.w.metas = s.src.w.metas := rfl
        rw [e] at hf
        cases hm : s.src.w.metas.get? r.uuid with
        | none => rw [hm] at hf; simp [rb] at hf
        | some m =>
          cases m with
          | none => rw [hm] at hf; cases hf
          | some m => exact ⟨m, rfl⟩
      obtain ⟨m, hm⟩ := hm
      have hd : OnDisk env (ideal env s.src.w.log s.connect.src.w) r.uuid c := onDisk_ideal rfl (c2 m hm)
      have hcf := ideal_log hcoll (w := s.connect.src.w) (fun _ h => h)
      obtain ⟨f', g1, g2⟩ := Rd.open (hok.fresh.wok hcoll) hd
      rw [open_ideal] at g1
      change (match File.open s.connect.src.w r.uuid rb with | .error e => .error e | .ok x => .ok (idealS env s.src.w.log x)) = Except.ok f' at g1
      rw [hf] at g1
      have g1 : idealS env s.src.w.log f = f' := by injection g1
      subst g1
      obtain ⟨o1, _, o3⟩ := open_okS hok.fresh hf
      obtain ⟨q1, _⟩ := Quiet.open (mode := rb) rfl hf
      unfold restoreFile at he ⊢
      have hcp := fun e => copy_partly (e := e) hcoll hcf o1 q1 (by rw [o3]; exact fun _ h => h) g2 (target.getD [])
      generalize copy env f ⟨target.getD [], 0⟩ = z at *
      obtain ⟨z1, z2, z3⟩ := z
      dsimp only at he ⊢
      obtain ⟨k, hk⟩ := hcp e he
      exact ⟨k, by rw [← partly, ← hk]⟩
  · rw [c1] at c1'
    cases c1'
    exact .inl hx

/-- **C90** The same for standard output: what was emitted is the beginning of the image, all of it if there was no error. -/
theorem C90_failed_stdout (env : Env) (s0 s : Sys) (h0 : Initial s0) (hlog : s0.src.w.log = []) (hs : Damaged env s0 s)
    (hcoll : CollFree env.H s.src.w.log) (u : String) (r : Rev) (hr : onDisk s.src.repo.files u = some r) (hl : r.server = "")
    (hc : r.clean = true) :
    ∃ c, s.ceph.taken.get? r.uuid = some c ∧ (restoreOut env s.connect.src.w r).2 <+: c ∧
      ((restoreOut env s.connect.src.w r).1 = .ok () → (restoreOut env s.connect.src.w r).2 = c) := by
  obtain ⟨hok, c, c1, c2⟩ := restore_kept h0 hlog hs hcoll hr hl hc
  refine ⟨c, c1, ?_, ?_⟩
  · cases hf : File.open s.connect.src.w r.uuid rb with
    | error e => simp [restoreOut, hf]
    | ok f =>
      have hm : ∃ m, s.src.w.metas.get? r.uuid = some (some m) := by
        unfold File.open at hf
        have e : s.connect.src.w.metas = s.src.w.metas := rfl
        rw [e] at hf
        cases hm : s.src.w.metas.get? r.uuid with
        | none => rw [hm] at hf; simp [rb] at hf
        | some m =>
          cases m with
          | none => rw [hm] at hf; cases hf
          | some m => exact ⟨m, rfl⟩
      obtain ⟨m, hm⟩ := hm
      have hd : OnDisk env (ideal env s.src.w.log s.connect.src.w) r.uuid c := onDisk_ideal rfl (c2 m hm)
      have h2 := C20_restore_stdout env _ r c (hok.fresh.wok hcoll) hd (ideal_log hcoll (fun _ h => h))
      have h3 := restoreOut_prefix hcoll hok.fresh (fun _ h => h) r
      rw [h2] at h3
      exact h3
  · intro h
    rcases C74_restore_stdout env s0 s h0 hlog hs hcoll u r hr hl hc with ⟨e, he⟩ | ⟨c', c1', hx⟩
    · rw [he] at h; cases h
    · rw [c1] at c1'; cases c1'; rw [hx]

/-- In `exBitrot` the second half of "a" is damaged: a restore over an old file replaces only the beginning. -/
example :
    (restore Test.env exBitrot.connect.src.w (finished (idealRbd [] []) (newRev "a" 10 {"daily"})) (some [9, 9, 9, 9, 9])).1 =
      .error .backend ∧
    (restore Test.env exBitrot.connect.src.w (finished (idealRbd [] []) (newRev "a" 10 {"daily"})) (some [9, 9, 9, 9, 9])).2 =
      some [0, 0, 0, 9, 9] ∧
    (restoreOut Test.env exBitrot.connect.src.w (finished (idealRbd [] []) (newRev "a" 10 {"daily"}))).1 = .error .backend ∧
    (restoreOut Test.env exBitrot.connect.src.w (finished (idealRbd [] []) (newRev "a" 10 {"daily"}))).2 = [0, 0, 0] := by
  decide +kernel

/-- C90_failed_restore, C90_failed_stdout: the damaged revision. -/
example := C90_failed_restore Test.env exNew exBitrot exNew_initial rfl exBitrot_damaged (Test.collFree _) "a"
  (finished (idealRbd [] []) (newRev "a" 10 {"daily"})) (by decide +kernel) (by decide +kernel) (by decide +kernel)
example := C90_failed_stdout Test.env exNew exBitrot exNew_initial rfl exBitrot_damaged (Test.collFree _) "a"
  (finished (idealRbd [] []) (newRev "a" 10 {"daily"})) (by decide +kernel) (by decide +kernel) (by decide +kernel)

end Verif.Backup
