import Verif.Model.Device
import Verif.Props.FailedRestore
/-!
# Properties C138 and C139: restoring to a target that is full, too small or fails
-/
namespace Verif.Device
open Verif Verif.Chunked Verif.Spec Verif.Rbd Verif.Repo Verif.Files Verif.Diff Verif.Backup

/-- What has been written is the beginning of the image, the buffer contains what comes next, up to `q`. -/
structure Part (c old : Bytes) (o : Out) (q : Nat) : Prop where
  content : o.content = partly c old o.pos
  buf : o.buf = (c.drop o.pos).take (q - o.pos)
  le : o.pos ≤ q
  len : q ≤ c.length

theorem Part.buf_length {c old : Bytes} {o : Out} {q : Nat} (h : Part c old o q) : o.buf.length = q - o.pos := by
  rw [h.buf, List.length_take, List.length_drop]
  have := h.len
  omega

theorem Part.flush {c old : Bytes} {o : Out} {q : Nat} (d : Target) (h : Part c old o q) :
    Part c old (o.flush d).2 q ∧ ((o.flush d).1 = .ok () → (o.flush d).2.pos = q ∧ (o.flush d).2.buf = []) := by
  have hl := h.buf_length
  have h1 := h.le
  have h2 := h.len
  simp only [Out.flush]
  split
  · rename_i hb
    refine ⟨h, fun _ => ⟨?_, hb⟩⟩
    rw [hb] at hl
    simp at hl
    show o.pos = q
    omega
  · split
    · refine ⟨⟨?_, ?_, ?_, h2⟩, fun _ => ⟨?_, rfl⟩⟩
      · dsimp only
        rw [h.content, h.buf, partly_write (by omega)]
      · dsimp only
        rw [hl, show o.pos + (q - o.pos) = q by omega]
        simp
      · dsimp only; omega
      · dsimp only; omega
    · rename_i k _
      have hk : o.buf.take k = (c.drop o.pos).take (min k (q - o.pos)) := by
        rw [h.buf, List.take_take]
      have hkl : (o.buf.take k).length = min k (q - o.pos) := by
        rw [List.length_take, hl]
      refine ⟨⟨?_, ?_, ?_, h2⟩, fun h => by cases h⟩
      · dsimp only
        rw [h.content, hk, partly_write (by omega)]
      · dsimp only
        rw [hkl, h.buf, List.drop_take, List.drop_drop]
        by_cases hq : k ≤ q - o.pos
        · rw [Nat.min_eq_left hq]
          congr 1
          omega
        · rw [Nat.min_eq_right (by omega)]
          rw [show q - o.pos - k = 0 by omega, show q - (o.pos + (q - o.pos)) = 0 by omega]
          simp
      · dsimp only; omega

theorem Part.write {c old : Bytes} {o : Out} {q : Nat} (d : Target) (b : Nat) (n : Nat) (h : Part c old o q) :
    (∃ q', Part c old (o.write d b ((c.drop q).take n)).2 q') ∧
    ((o.write d b ((c.drop q).take n)).1 = .ok () →
      Part c old (o.write d b ((c.drop q).take n)).2 (q + ((c.drop q).take n).length)) := by
  have h1 := h.le
  have h2 := h.len
  have hlen : ((c.drop q).take n).length = min n (c.length - q) := by rw [List.length_take, List.length_drop]
  have hfull : (c.drop q).take n = (c.drop q).take (q + ((c.drop q).take n).length - q) := by
    rw [hlen, Nat.add_sub_cancel_left, List.take_eq_take_iff, List.length_drop]
    omega
  simp only [Out.write]
  split
  · have hp : Part c old { o with buf := o.buf ++ (c.drop q).take n } (q + ((c.drop q).take n).length) := by
      refine ⟨h.content, ?_, ?_, by rw [hlen]; omega⟩
      · dsimp only
        rw [show q + ((c.drop q).take n).length - o.pos = (q - o.pos) + (q + ((c.drop q).take n).length - q) by omega, List.take_add,
          List.drop_drop, show o.pos + (q - o.pos) = q by omega, ← hfull, h.buf]
      · dsimp only; omega
    exact ⟨⟨_, hp⟩, fun _ => hp⟩
  · obtain ⟨f1, f2⟩ := h.flush d
    generalize o.flush d = z at *
    obtain ⟨z1, z2⟩ := z
    cases z1 with
    | error e => exact ⟨⟨q, f1⟩, fun h => by cases h⟩
    | ok u =>
      obtain ⟨f2, f3⟩ := f2 rfl
      dsimp only at f1 f2 f3 ⊢
      have hp : Part c old { z2 with buf := (c.drop q).take n } (q + ((c.drop q).take n).length) := by
        refine ⟨f1.content, ?_, ?_, by rw [hlen]; omega⟩
        · dsimp only
          rw [f2]
          exact hfull
        · dsimp only; omega
      simp only [Out.direct]
      split
      · exact ⟨⟨_, hp⟩, fun _ => hp⟩
      · obtain ⟨g1, g2⟩ := hp.flush d
        generalize Out.flush d { z2 with buf := (c.drop q).take n } = y at *
        obtain ⟨y1, y2⟩ := y
        cases y1 with
        | ok u => exact ⟨⟨_, g1⟩, fun _ => g1⟩
        | error e =>
          dsimp only at g1 ⊢
          refine ⟨⟨y2.pos, g1.content, ?_, Nat.le_refl _, Nat.le_trans g1.le g1.len⟩, fun h => by cases h⟩
          simp

theorem copyLoop_part {env : Env} {L : List Bytes} (hL : CollFree env.H L) {w : World} (hw : CollFree env.H w.log) (d : Target) (b : Nat)
    (c old : Bytes) (fuel : Nat) : ∀ (s : S) (o : Out) (q : Nat), OkS env L s → Quiet s → s.w.log ⊆ L → Rd env w (idealS env L s) c q →
      Part c old o q →
      ∃ q', Part c old (copyLoop env d b fuel s o).2.2 q' ∧ ((copyLoop env d b fuel s o).1 = .ok () →
        q' = c.length ∧ (copyLoop env d b fuel s o).2.1.f.pos = c.length) := by
  induction fuel with
  | zero => intro s o q _ _ _ _ hp; exact ⟨q, hp, fun h => by cases h⟩
  | succ n ih =>
    intro s o q h hq hl hr hp
    unfold copyLoop readS
    obtain ⟨q1, q2⟩ := hq.read (env := env) (env.blk : Int)
    have hlog : (s.read env (env.blk : Int)).2.w.log ⊆ L := by rw [Ticked.log q2]; exact hl
    obtain ⟨c1, c2, c3⟩ := read_com hL (env.blk : Int) h hlog
    obtain ⟨s1, e1, e2⟩ := hr.read hw env.blk
    unfold readS at e1
    generalize s.read env (env.blk : Int) = g at *
    obtain ⟨g1, g2⟩ := g
    cases g1 with
    | error e => exact ⟨q, hp, fun h => by cases h⟩
    | ok chunk =>
      have c3 := c3 chunk rfl
      rw [e1] at c3
      simp only [Prod.mk.injEq, Except.ok.injEq] at c3
      obtain ⟨rfl, rfl⟩ := c3
      dsimp only at c1 q1 hlog ⊢
      split
      · rename_i he
        have hz : (c.drop q).length = 0 ∨ env.blk = 0 := by
          have := congrArg List.length he
          rw [List.length_take] at this
          simp only [List.length_nil] at this
          omega
        have hb := env.blk_pos
        have hql : q = c.length := by
          rw [List.length_drop] at hz
          have := hp.len
          omega
        refine ⟨q, hp, fun _ => ⟨hql, ?_⟩⟩
        have := e2.pos
        rw [he] at this
        simp only [List.length_nil, Nat.add_zero] at this
        rw [← hql]
        exact this
      · obtain ⟨w1, w2⟩ := hp.write d b env.blk
        generalize o.write d b ((c.drop q).take env.blk) = y at *
        obtain ⟨y1, y2⟩ := y
        cases y1 with
        | error e =>
          obtain ⟨q', w1⟩ := w1
          exact ⟨q', w1, fun h => by cases h⟩
        | ok u => exact ih g2 y2 _ c1 q1 hlog e2 (w2 rfl)

theorem copy_part {env : Env} {L : List Bytes} (hL : CollFree env.H L) {w : World} (hw : CollFree env.H w.log) (d : Target) (b : Nat)
    {s : S} {c : Bytes} {pos : Nat} (h : OkS env L s) (hq : Quiet s) (hl : s.w.log ⊆ L) (hr : Rd env w (idealS env L s) c pos)
    (old : Bytes) :
    (∃ e q, (copy env d b s ⟨old, 0, [], 0⟩).1 = .error e ∧ Part c old (copy env d b s ⟨old, 0, [], 0⟩).2 q) ∨
    ((copy env d b s ⟨old, 0, [], 0⟩).1 = .ok () ∧
      (copy env d b s ⟨old, 0, [], 0⟩).2.content = c ++ (if d.truncFails then old.drop c.length else [])) := by
  have h0 : Part c old ⟨old, 0, [], 0⟩ 0 := ⟨by simp [partly], by simp, Nat.le_refl _, Nat.zero_le _⟩
  unfold copy
  obtain ⟨q1, q2⟩ := hq.seek (env := env) 0 .end_
  have hlog : (s.seek env 0 .end_).2.w.log ⊆ L := by rw [Ticked.log q2]; exact hl
  obtain ⟨c1, c2, c3⟩ := seek_com hL 0 .end_ h hlog
  obtain ⟨s1, e1, e2⟩ := hr.seek hw 0 .end_ c.length (by simp [Flat.target]) (Nat.le_refl _)
  generalize s.seek env 0 .end_ = g at *
  obtain ⟨g1, g2⟩ := g
  cases g1 with
  | error e => exact .inl ⟨e, 0, rfl, h0⟩
  | ok p =>
    have c3 := c3 p rfl
    rw [e1] at c3
    simp only [Prod.mk.injEq, Except.ok.injEq] at c3
    obtain ⟨rfl, rfl⟩ := c3
    dsimp only at c1 q1 hlog ⊢
    obtain ⟨q3, q4⟩ := q1.seek (env := env) 0 .set
    have hlog2 : (g2.seek env 0 .set).2.w.log ⊆ L := by rw [Ticked.log q4]; exact hlog
    obtain ⟨d1, d2, d3⟩ := seek_com hL 0 .set c1 hlog2
    obtain ⟨s2, f1, f2⟩ := e2.seek hw 0 .set 0 (by simp [Flat.target]) (Nat.zero_le _)
    generalize g2.seek env 0 .set = k at *
    obtain ⟨k1, k2⟩ := k
    cases k1 with
    | error e => exact .inl ⟨e, 0, rfl, h0⟩
    | ok p2 =>
      have d3 := d3 p2 rfl
      rw [f1] at d3
      simp only [Prod.mk.injEq, Except.ok.injEq] at d3
      obtain ⟨rfl, rfl⟩ := d3
      dsimp only at d1 q3 hlog2 ⊢
      obtain ⟨q', p1, p2⟩ := copyLoop_part hL hw d b c old (k2.f.size + 1) k2 ⟨old, 0, [], 0⟩ 0 d1 q3 hlog2 f2 h0
      generalize copyLoop env d b (k2.f.size + 1) k2 ⟨old, 0, [], 0⟩ = z at *
      obtain ⟨z1, z2, z3⟩ := z
      cases z1 with
      | error e => exact .inl ⟨e, q', rfl, p1⟩
      | ok u =>
        obtain ⟨rfl, hpos⟩ := p2 rfl
        dsimp only at p1 hpos ⊢
        simp only [finish]
        obtain ⟨r1, r2⟩ := p1.flush d
        generalize z3.flush d = y at *
        obtain ⟨y1, y2⟩ := y
        cases y1 with
        | error e => exact .inl ⟨e, c.length, rfl, r1⟩
        | ok u =>
          obtain ⟨r2, _⟩ := r2 rfl
          dsimp only at r1 r2 ⊢
          have hc := r1.content
          rw [r2] at hc
          refine .inr ⟨rfl, ?_⟩
          simp only [Out.truncate, hpos]
          have hpl : partly c old c.length = c ++ old.drop c.length := by simp [partly]
          rw [hpl] at hc
          split
          · exact hc
          · dsimp only
            rw [hc]
            simp [zeros]

/-- The image of a revision, as a file that was opened for reading. -/
theorem opened {env : Env} {s0 s : Sys} (h0 : Initial s0) (hlog : s0.src.w.log = []) (hs : Damaged env s0 s)
    (hcoll : CollFree env.H s.src.w.log) {u : String} {r : Rev} (hr : onDisk s.src.repo.files u = some r) (hl : r.server = "")
    (hc : r.clean = true) : ∃ c, s.ceph.taken.get? r.uuid = some c ∧
      ∀ f, File.open s.connect.src.w r.uuid rb = .ok f → ∃ w, CollFree env.H w.log ∧ OkS env s.src.w.log f ∧ Quiet f ∧
        f.w.log ⊆ s.src.w.log ∧ Rd env w (idealS env s.src.w.log f) c 0 := by
  obtain ⟨hok, c, c1, c2⟩ := restore_kept h0 hlog hs hcoll hr hl hc
  refine ⟨c, c1, fun f hf => ?_⟩
  have hm : ∃ m, s.src.w.metas.get? r.uuid = some (some m) := by
    unfold File.open at hf
    have e : s.connect.src.w.metas = s.src.w.metas := rfl
    rw [e] at hf
    cases hm : s.src.w.metas.get? r.uuid with
    | none => rw [hm] at hf; simp [rb] at hf
    | some m =>
      cases m with
      | none => rw [hm] at hf; cases hf
      | some m => exact ⟨m, rfl⟩
  obtain ⟨m, hm⟩ := hm
  have hd : OnDisk env (ideal env s.src.w.log s.connect.src.w) r.uuid c := onDisk_ideal rfl (c2 m hm)
  have hcf := ideal_log hcoll (w := s.connect.src.w) (fun _ h => h)
  obtain ⟨f', g1, g2⟩ := Rd.open (hok.fresh.wok hcoll) hd
  rw [open_ideal] at g1
  change (match File.open s.connect.src.w r.uuid rb with | .error e => .error e | .ok x => .ok (idealS env s.src.w.log x)) = Except.ok f' at g1
  rw [hf] at g1
  have g1 : idealS env s.src.w.log f = f' := by injection g1
  subst g1
  obtain ⟨o1, _, o3⟩ := open_okS hok.fresh hf
  obtain ⟨q1, _⟩ := Quiet.open (mode := rb) rfl hf
  exact ⟨_, hcf, o1, q1, by rw [o3]; exact fun _ h => h, g2⟩

/-- **C138** Whatever is damaged, whatever writing to the target does: a
restore of a complete revision of this server that reports success has written exactly the image, if `fsync` did not fail.  If the
target cannot be truncated (a block device), it contains the image and behind it what was there before.  So a target on which the
image has no room never gives a success. -/
theorem C138_success (env : Env) (s0 s : Sys) (h0 : Initial s0) (hlog : s0.src.w.log = []) (hs : Damaged env s0 s)
    (hcoll : CollFree env.H s.src.w.log) (u : String) (r : Rev) (hr : onDisk s.src.repo.files u = some r) (hl : r.server = "")
    (hc : r.clean = true) :
    ∃ c, s.ceph.taken.get? r.uuid = some c ∧ ∀ (d : Target) (b : Nat) (target : Option Bytes), d.sync = none →
      (restore env d b s.connect.src.w r target).1 = .ok () →
      (restore env d b s.connect.src.w r target).2 =
        some (c ++ (if d.truncFails then (target.getD []).drop c.length else [])) := by
  obtain ⟨c, c1, c2⟩ := opened h0 hlog hs hcoll hr hl hc
  refine ⟨c, c1, fun d b target hd h => ?_⟩
  unfold restore at h ⊢
  cases hf : File.open s.connect.src.w r.uuid rb with
  | error e => rw [hf] at h; cases h
  | ok f =>
    obtain ⟨w, w1, w2, w3, w4, w5⟩ := c2 f hf
    rw [hf] at h
    dsimp only at h ⊢
    unfold restoreFile at h ⊢
    have hp := copy_part hcoll w1 d b w2 w3 w4 w5 (target.getD [])
    generalize copy env d b f ⟨target.getD [], 0, [], 0⟩ = z at *
    obtain ⟨z1, z2⟩ := z
    cases z1 with
    | error e => cases h
    | ok x =>
      rcases hp with ⟨e, q, he, _⟩ | ⟨_, hp⟩
      · cases he
      · dsimp only at hp ⊢
        simp only [Target.disk, hd]
        rw [hp]

/-- **C139** (partial: an error of `fsync` is ignored) A restore that reports success has called `fsync` after it had written exactly the
image: what is on the disk afterwards is the image as far as `fsync` has stored it. -/
theorem C139_synced_partial (env : Env) (s0 s : Sys) (h0 : Initial s0) (hlog : s0.src.w.log = []) (hs : Damaged env s0 s)
    (hcoll : CollFree env.H s.src.w.log) (u : String) (r : Rev) (hr : onDisk s.src.repo.files u = some r) (hl : r.server = "")
    (hc : r.clean = true) :
    ∃ c, s.ceph.taken.get? r.uuid = some c ∧ ∀ (d : Target) (b : Nat) (target : Option Bytes), d.truncFails = false →
      (restore env d b s.connect.src.w r target).1 = .ok () →
      (d.sync = none → (restore env d b s.connect.src.w r target).2 = some c) ∧
      ∀ k, d.sync = some k → (restore env d b s.connect.src.w r target).2 = some (c.take k ++ (target.getD []).drop k) := by
  obtain ⟨c, c1, c2⟩ := opened h0 hlog hs hcoll hr hl hc
  refine ⟨c, c1, fun d b target ht h => ?_⟩
  unfold restore at h ⊢
  cases hf : File.open s.connect.src.w r.uuid rb with
  | error e => rw [hf] at h; cases h
  | ok f =>
    obtain ⟨w, w1, w2, w3, w4, w5⟩ := c2 f hf
    rw [hf] at h
    dsimp only at h ⊢
    unfold restoreFile at h ⊢
    have hp := copy_part hcoll w1 d b w2 w3 w4 w5 (target.getD [])
    generalize copy env d b f ⟨target.getD [], 0, [], 0⟩ = z at *
    obtain ⟨z1, z2⟩ := z
    cases z1 with
    | error e => cases h
    | ok x =>
      rcases hp with ⟨e, q, he, _⟩ | ⟨_, hp⟩
      · cases he
      · simp only [ht, Bool.false_eq_true, if_false, List.append_nil] at hp
        refine ⟨fun hd => ?_, fun k hd => ?_⟩
        · simp only [Target.disk, hd]
          rw [hp]
        · simp only [Target.disk, hd]
          rw [hp]

/-- **C138** If it reports an error, the target is untouched, or it begins with a part of the image, followed by what was there before. -/
theorem C138_failure (env : Env) (s0 s : Sys) (h0 : Initial s0) (hlog : s0.src.w.log = []) (hs : Damaged env s0 s)
    (hcoll : CollFree env.H s.src.w.log) (u : String) (r : Rev) (hr : onDisk s.src.repo.files u = some r) (hl : r.server = "")
    (hc : r.clean = true) :
    ∃ c, s.ceph.taken.get? r.uuid = some c ∧ ∀ (d : Target) (b : Nat) (target : Option Bytes) (e : PyErr),
      (restore env d b s.connect.src.w r target).1 = .error e →
      (restore env d b s.connect.src.w r target).2 = target ∨
        ∃ k, (restore env d b s.connect.src.w r target).2 = some (c.take k ++ (target.getD []).drop k) := by
  obtain ⟨c, c1, c2⟩ := opened h0 hlog hs hcoll hr hl hc
  refine ⟨c, c1, fun d b target e h => ?_⟩
  unfold restore at h ⊢
  cases hf : File.open s.connect.src.w r.uuid rb with
  | error e => exact .inl rfl
  | ok f =>
    obtain ⟨w, w1, w2, w3, w4, w5⟩ := c2 f hf
    right
    rw [hf] at h
    dsimp only at h ⊢
    unfold restoreFile at h ⊢
    have hp := copy_part hcoll w1 d b w2 w3 w4 w5 (target.getD [])
    generalize copy env d b f ⟨target.getD [], 0, [], 0⟩ = z at *
    obtain ⟨z1, z2⟩ := z
    cases z1 with
    | ok x => cases h
    | error e =>
      rcases hp with ⟨e, q, he, hp⟩ | ⟨he, _⟩
      · obtain ⟨g, _⟩ := hp.flush d
        exact ⟨_, by dsimp only; rw [g.content]; rfl⟩
      · cases he

/-- **C138** Standard output (a pipe that may be closed, a file on a full disk): what has arrived is a beginning of the image; all of
it if success is reported. -/
theorem C138_stdout (env : Env) (s0 s : Sys) (h0 : Initial s0) (hlog : s0.src.w.log = []) (hs : Damaged env s0 s)
    (hcoll : CollFree env.H s.src.w.log) (u : String) (r : Rev) (hr : onDisk s.src.repo.files u = some r) (hl : r.server = "")
    (hc : r.clean = true) :
    ∃ c, s.ceph.taken.get? r.uuid = some c ∧ ∀ (d : Target) (b : Nat),
      (restoreOut env d b s.connect.src.w r).2 <+: c ∧
      ((restoreOut env d b s.connect.src.w r).1 = .ok () → (restoreOut env d b s.connect.src.w r).2 = c) := by
  obtain ⟨c, c1, c2⟩ := opened h0 hlog hs hcoll hr hl hc
  refine ⟨c, c1, fun d b => ?_⟩
  unfold restoreOut
  cases hf : File.open s.connect.src.w r.uuid rb with
  | error e => exact ⟨List.nil_prefix, fun h => by cases h⟩
  | ok f =>
    obtain ⟨w, w1, w2, w3, w4, w5⟩ := c2 f hf
    dsimp only
    have h0 : Part c [] ⟨[], 0, [], 0⟩ 0 := ⟨by simp [partly], by simp, Nat.le_refl _, Nat.zero_le _⟩
    obtain ⟨q', p1, p2⟩ := copyLoop_part hcoll w1 d b c [] (f.f.size + 1) f ⟨[], 0, [], 0⟩ 0 w2 w3 w4 w5 h0
    generalize copyLoop env d b (f.f.size + 1) f ⟨[], 0, [], 0⟩ = z at *
    obtain ⟨z1, z2, z3⟩ := z
    obtain ⟨g1, g2⟩ := p1.flush d
    dsimp only at g1 g2 p2
    have hpre : (z3.flush d).2.content = c.take (z3.flush d).2.pos := by
      rw [g1.content]; simp [partly]
    cases z1 with
    | error e =>
      refine ⟨?_, fun h => by cases h⟩
      simp only [closeOut]
      rw [hpre]
      exact List.take_prefix _ _
    | ok x =>
      simp only [closeOut]
      refine ⟨by rw [hpre]; exact List.take_prefix _ _, fun h => ?_⟩
      obtain ⟨rfl, _⟩ := p2 rfl
      rw [hpre, (g2 h).1, List.take_length]

/-! ### A target that works -/

/-- What a reader of the file would see if the buffer were written. -/
def Out.virt (o : Out) : PFile := ⟨writeAt o.content o.pos o.buf, o.pos + o.buf.length⟩

theorem virt_empty {o : Out} (h : o.buf = []) : o.virt = ⟨o.content, o.pos⟩ := by
  simp [Out.virt, h, writeAt]

/-- Every write succeeds. -/
def Target.Writes (d : Target) : Prop := ∀ n, d.write n = none

theorem flush_works {d : Target} (hd : d.Writes) (o : Out) :
    (o.flush d).1 = .ok () ∧ (o.flush d).2.virt = o.virt ∧ (o.flush d).2.buf = [] := by
  simp only [Out.flush]
  split
  · rename_i h; exact ⟨rfl, rfl, h⟩
  · rw [hd]
    exact ⟨rfl, by simp [Out.virt, writeAt], rfl⟩

theorem write_works {d : Target} (hd : d.Writes) (b : Nat) (data : Bytes) (o : Out) :
    (o.write d b data).1 = .ok () ∧ (o.write d b data).2.virt = o.virt.write data := by
  have hv : ∀ o : Out, Out.virt { o with buf := o.buf ++ data } = o.virt.write data := by
    intro o
    simp [Out.virt, PFile.write, writeAt_append, Nat.add_assoc]
  simp only [Out.write]
  split
  · exact ⟨rfl, hv o⟩
  · obtain ⟨f1, f2, f3⟩ := flush_works hd o
    generalize o.flush d = z at *
    obtain ⟨z1, z2⟩ := z
    dsimp only at f1 f2 f3
    subst f1
    dsimp only
    have h2 : Out.virt { z2 with buf := data } = o.virt.write data := by
      rw [← f2, ← hv z2]
      simp [f3]
    simp only [Out.direct]
    split
    · exact ⟨rfl, h2⟩
    · obtain ⟨g1, g2, g3⟩ := flush_works hd { z2 with buf := data }
      generalize Out.flush d { z2 with buf := data } = y at *
      obtain ⟨y1, y2⟩ := y
      dsimp only at g1 g2 g3
      subst g1
      exact ⟨rfl, by rw [← h2]; exact g2⟩

theorem copyLoop_works {d : Target} (hd : d.Writes) (env : Env) (b : Nat) (fuel : Nat) : ∀ (s : S) (o : Out),
    Files.copyLoop env fuel s o.virt =
      ((copyLoop env d b fuel s o).1, (copyLoop env d b fuel s o).2.1, (copyLoop env d b fuel s o).2.2.virt) := by
  induction fuel with
  | zero => intro s o; rfl
  | succ n ih =>
    intro s o
    simp only [copyLoop, Files.copyLoop]
    generalize readS env env.blk s = g
    obtain ⟨g1, g2⟩ := g
    cases g1 with
    | error e => rfl
    | ok chunk =>
      dsimp only
      split
      · rfl
      · obtain ⟨w1, w2⟩ := write_works hd b chunk o
        generalize o.write d b chunk = y at *
        obtain ⟨y1, y2⟩ := y
        dsimp only at w1 w2
        subst w1
        dsimp only
        rw [← w2]
        exact ih g2 y2

theorem virt_content {d : Target} (hd : d.Writes) (o : Out) : (o.flush d).2.content = o.virt.content := by
  obtain ⟨_, f2, f3⟩ := flush_works hd o
  rw [← f2, virt_empty f3]

theorem copyLoop_stdout (env : Env) (fuel : Nat) : ∀ (s : S) (out : Bytes),
    stdoutLoop env fuel s out = ((Files.copyLoop env fuel s ⟨out, out.length⟩).1, (Files.copyLoop env fuel s ⟨out, out.length⟩).2.1,
      (Files.copyLoop env fuel s ⟨out, out.length⟩).2.2.content) := by
  induction fuel with
  | zero => intro s out; rfl
  | succ n ih =>
    intro s out
    simp only [Files.copyLoop, stdoutLoop]
    generalize readS env env.blk s = g
    obtain ⟨g1, g2⟩ := g
    cases g1 with
    | error e => rfl
    | ok chunk =>
      dsimp only
      split
      · rfl
      · rw [ih]
        have : PFile.write ⟨out, out.length⟩ chunk = ⟨out ++ chunk, (out ++ chunk).length⟩ := by
          simp [PFile.write, writeAt_end]
        rw [this]

/-- **C138, a target that works** This is the restore of `Model/Files.lean`, about which the other properties are, whatever the size of
the buffer. -/
theorem C138_working (env : Env) (d : Target) (hd : d.Writes) (b : Nat) (w : World) (r : Rev) :
    (d.truncFails = false → d.sync = none → ∀ target, restore env d b w r target = Files.restore env w r target) ∧
    restoreOut env d b w r = Files.restoreOut env w r := by
  constructor
  · intro ht hs target
    unfold restore Files.restore
    cases File.open w r.uuid rb with
    | error e => rfl
    | ok s =>
      dsimp only
      unfold restoreFile Files.restoreFile copy Files.copy
      have h0 : (⟨target.getD [], 0, [], 0⟩ : Out).virt = ⟨target.getD [], 0⟩ := virt_empty rfl
      have hf : (Out.flush d ⟨target.getD [], 0, [], 0⟩).2.content = target.getD [] := by
        rw [virt_content hd, h0]
      generalize s.seek env 0 .end_ = g
      obtain ⟨g1, g2⟩ := g
      cases g1 with
      | error e => dsimp only; rw [hf]
      | ok x =>
        dsimp only
        generalize g2.seek env 0 .set = k
        obtain ⟨k1, k2⟩ := k
        cases k1 with
        | error e => dsimp only; rw [hf]
        | ok x =>
          dsimp only
          have hl := copyLoop_works hd env b (k2.f.size + 1) k2 ⟨target.getD [], 0, [], 0⟩
          rw [h0] at hl
          rw [hl]
          generalize copyLoop env d b (k2.f.size + 1) k2 ⟨target.getD [], 0, [], 0⟩ = z
          obtain ⟨z1, z2, z3⟩ := z
          cases z1 with
          | error e => dsimp only; rw [virt_content hd]
          | ok x =>
            dsimp only [finish]
            have hc := virt_content hd z3
            obtain ⟨f1, _, _⟩ := flush_works hd z3
            generalize z3.flush d = y at *
            obtain ⟨y1, y2⟩ := y
            dsimp only at f1 hc
            subst f1
            simp only [Target.disk, hs, Out.truncate, ht, Bool.false_eq_true, if_false, PFile.truncate]
            rw [hc]
  · unfold restoreOut Files.restoreOut
    cases File.open w r.uuid rb with
    | error e => rfl
    | ok s =>
      dsimp only
      unfold restoreStdout
      have h0 : (⟨[], 0, [], 0⟩ : Out).virt = ⟨[], ([] : Bytes).length⟩ := virt_empty rfl
      rw [copyLoop_stdout, ← h0, copyLoop_works hd env b]
      generalize copyLoop env d b (s.f.size + 1) s ⟨[], 0, [], 0⟩ = z
      obtain ⟨z1, z2, z3⟩ := z
      cases z1 with
      | error e => dsimp only [closeOut]; rw [virt_content hd]
      | ok x => dsimp only [closeOut]; rw [virt_content hd, (flush_works hd z3).1]

/-! ### Examples: the second revision of `Props/BackupRuns.lean` -/

/-- A restore of the second revision. -/
def exTarget (d : Target) (b : Nat) (target : Option Bytes) : Except PyErr Unit × Option Bytes :=
  restore Test.env d b exSecond.connect.src.w (finished (idealRbd [] []) (newRev "b" 20 {"daily"})) target

/-- **C139** is false of the code: all of the data has been given to the kernel, but `fsync` reports that it could not be written (an
input/output error, or a thin or remote volume without room).  The error is ignored: the restore succeeds and the target contains
only a part of the image. -/
theorem C139_false_fsync : ∃ (s : Sys) (d : Target) (r : Rev) (c : Bytes), Steps Test.env exNew s ∧ CollFree Test.env.H s.src.w.log ∧
    onDisk s.src.repo.files "b" = some r ∧ r.server = "" ∧ r.clean = true ∧ s.ceph.taken.get? "b" = some c ∧
    (∀ n, d.write n = none) ∧ d.truncFails = false ∧
    (restore Test.env d 4 s.connect.src.w r none).1 = .ok () ∧ (restore Test.env d 4 s.connect.src.w r none).2 ≠ some c :=
  ⟨exSecond, ⟨fun _ => none, false, some 3⟩, finished (idealRbd [] []) (newRev "b" 20 {"daily"}), [0, 0, 0, 0, 2, 2, 2, 2],
    exSecond_steps, Test.collFree _, by decide +kernel, by decide +kernel, by decide +kernel, by decide +kernel, fun _ => rfl, rfl,
    by decide +kernel, by decide +kernel⟩

/-- A block device that is larger than the image; a full disk at the second write; an error that goes away before the file is closed. -/
example : exTarget ⟨fun _ => none, true, none⟩ 4 (some [9, 9, 9, 9, 9, 9, 9, 9, 9, 9]) = (.ok (), some [0, 0, 0, 0, 2, 2, 2, 2, 9, 9]) ∧
    exTarget ⟨fun n => if n = 0 then none else some 1, false, none⟩ 4 none = (.error .os, some [0, 0, 0, 0, 2]) ∧
    exTarget ⟨fun n => if n = 0 then some 1 else none, false, none⟩ 4 (some [9, 9, 9, 9, 9, 9, 9, 9, 9]) =
      (.error .os, some [0, 0, 0, 9, 9, 9, 9, 9, 9]) ∧
    (restoreOut Test.env ⟨fun n => if n = 0 then none else some 0, false, none⟩ 2 exSecond.connect.src.w
      (finished (idealRbd [] []) (newRev "b" 20 {"daily"}))) = (.error .os, [0, 0, 0]) := by decide +kernel

/-- C138_success, C138_failure and C138_stdout: the second revision, and a damaged one. -/
example := C138_success Test.env exNew exBitrot exNew_initial rfl exBitrot_damaged (Test.collFree _) "a"
  (finished (idealRbd [] []) (newRev "a" 10 {"daily"})) (by decide +kernel) (by decide +kernel) (by decide +kernel)
example := C138_failure Test.env exNew exBitrot exNew_initial rfl exBitrot_damaged (Test.collFree _) "a"
  (finished (idealRbd [] []) (newRev "a" 10 {"daily"})) (by decide +kernel) (by decide +kernel) (by decide +kernel)
example := C138_stdout Test.env exNew exBitrot exNew_initial rfl exBitrot_damaged (Test.collFree _) "a"
  (finished (idealRbd [] []) (newRev "a" 10 {"daily"})) (by decide +kernel) (by decide +kernel) (by decide +kernel)

/-- C138_working: a buffer of three bytes. -/
example : restore Test.env ⟨fun _ => none, false, none⟩ 3 exSecond.connect.src.w (newRev "b" 20 ∅) (some [7]) =
    Files.restore Test.env exSecond.connect.src.w (newRev "b" 20 ∅) (some [7]) :=
  (C138_working Test.env ⟨fun _ => none, false, none⟩ (fun _ => rfl) 3 _ _).1 rfl rfl _

/-- C138_success: a block device with ten bytes. -/
example : ∃ c, exSecond.ceph.taken.get? "b" = some c ∧
    (exTarget ⟨fun _ => none, true, none⟩ 4 (some [9, 9, 9, 9, 9, 9, 9, 9, 9, 9])).2 = some (c ++ [9, 9]) := by
  obtain ⟨c, c1, c2⟩ := C138_success Test.env exNew exSecond exNew_initial rfl (.ofSteps exSecond_steps) (Test.collFree _) "b"
    (finished (idealRbd [] []) (newRev "b" 20 {"daily"})) (by decide +kernel) (by decide +kernel) (by decide +kernel)
  refine ⟨c, c1, ?_⟩
  have hc : exSecond.ceph.taken.get? "b" = some [0, 0, 0, 0, 2, 2, 2, 2] := by decide +kernel
  have c1' : exSecond.ceph.taken.get? "b" = some c := c1
  rw [hc] at c1'
  cases c1'
  exact c2 ⟨fun _ => none, true, none⟩ 4 (some [9, 9, 9, 9, 9, 9, 9, 9, 9, 9]) rfl (by decide +kernel)

/-- C139_synced_partial: the second revision. -/
example := C139_synced_partial Test.env exNew exSecond exNew_initial rfl (.ofSteps exSecond_steps) (Test.collFree _) "b"
  (finished (idealRbd [] []) (newRev "b" 20 {"daily"})) (by decide +kernel) (by decide +kernel) (by decide +kernel)

end Verif.Device
