import Verif.Model.Defaults
import Verif.Props.Restorable
import Verif.Props.Lasting
/-!
# Property C109: `distrust`, `verify`, `rm` and `restore` without `-r`
-/
set_option linter.dupNamespace false
namespace Verif.Commands
open Verif Verif.Chunked Verif.Spec Verif.Rbd Verif.Repo Verif.Files Verif.Backup Verif.Cli Verif.Repo.Spec

/-- The expression consisting of one selector. -/
def atomExpr (s : String) : Expr .disj := .all (.one (.single (.atom s)))

/-- `trust:distrusted&local`. -/
def suspectExpr : Expr .disj := .all (.and (.single (.atom "trust:distrusted")) (.one (.single (.atom "local"))))

theorem find_local (c : Ctx) : findRevisions c "local" = .ok (c.history.filter (fun r => decide (r.server = ""))) := by
  have h := C37_expressions c (atomExpr "local") (plainWord_of (s := "local") (by decide +kernel) (by decide)) [] (by intro c hc; simp at hc)
  have e : String.ofList ((atomExpr "local").text []) = "local" := by decide +kernel
  have h2 : (semOf c).select "local" = some (c.history.filter Selector.local_.selects) := C37_selectors c .local_
  have h3 : ((atomExpr "local").meaning (semOf c)).revs = some (c.history.filter Selector.local_.selects) := h2
  rw [e, h3] at h
  cases hf : findRevisions c "local" with
  | error e => rw [hf] at h; cases h
  | ok l => rw [hf] at h; cases h; rfl

theorem find_suspect (c : Ctx) (hH : c.history.Nodup) : findRevisions c "trust:distrusted&local" =
    .ok (c.history.filter (fun r => decide (r.trust = .distrusted ∧ r.server = ""))) := by
  have h := C37_expressions c suspectExpr
    ⟨plainWord_of (by decide +kernel) (by decide), plainWord_of (by decide +kernel) (by decide)⟩ [] (by intro c hc; simp at hc)
  have e : String.ofList (suspectExpr.text []) = "trust:distrusted&local" := by decide +kernel
  have h1 : (semOf c).select "trust:distrusted" = some (c.history.filter (Selector.trust .distrusted).selects) :=
    C37_selectors c (.trust .distrusted)
  have h2 : (semOf c).select "local" = some (c.history.filter Selector.local_.selects) := C37_selectors c .local_
  have h3 : inter (c.history.filter (Selector.trust .distrusted).selects) (c.history.filter Selector.local_.selects) =
      c.history.filter (fun r => decide (r.trust = .distrusted ∧ r.server = "")) := by
    unfold inter
    rw [eraseDups_nodup _ ((hH.filter _).filter _), List.filter_filter]
    apply List.filter_congr
    intro x hx
    rw [Bool.eq_iff_iff]
    simp only [Bool.and_eq_true, decide_eq_true_eq, List.mem_filter, Selector.selects, hx, true_and]
    exact and_comm
  have h4 : (suspectExpr.meaning (semOf c)).revs = some (c.history.filter (fun r => decide (r.trust = .distrusted ∧ r.server = ""))) := by
    simp only [suspectExpr, Expr.meaning, h1, h2, Option.bind_some, Option.map_some, h3]
  rw [e, h4] at h
  cases hf : findRevisions c "trust:distrusted&local" with
  | error e => rw [hf] at h; cases h
  | ok l => rw [hf] at h; cases h; rfl

/-- **C109** `backy distrust` without `-r`, if nobody holds the lock: it exits with 0, every revision of this server is distrusted and otherwise
as before, revisions of other servers and all data are unchanged.  If somebody does, it exits with 1 and nothing has changed. -/
theorem C109_distrust (env : Env) (x : Outside) (sch : Schedule) (hx : x.sch = some sch) (dry : Bool) (s : Sys) (hn : Named s.src.repo.files) :
    let out := mainArgs env x dry .distrust none s
    (x.busy = false → out.1 = 0 ∧ SameData s out.2 ∧
      ∀ u, onDisk out.2.src.repo.files u =
        (onDisk s.src.repo.files u).map (fun r => if r.server = "" then { r with trust := .distrusted } else r)) ∧
    (x.busy = true → out.1 = 1 ∧ Same s out.2) := by
  dsimp only
  show (x.busy = false → (main env x dry (.repo (.distrust "local")) s).1 = 0 ∧ _) ∧ _
  have hs : selects x s "local" = .ok (s.src.repo.scan.history.filter (fun r => decide (r.server = ""))) := find_local _
  obtain ⟨h1, h2, h3⟩ := C67_distrust env x sch hx dry "local" s _ hs (by
    intro r hr
    rw [List.mem_filter] at hr
    simpa using hr.2)
  refine ⟨fun hb => ?_, h3⟩
  obtain ⟨a1, a2, a3⟩ := h2 hb
  refine ⟨a1, h1, fun u => ?_⟩
  cases hr : onDisk s.src.repo.files u with
  | none =>
    refine (a3 u ?_).trans hr
    rintro q hq rfl
    rw [List.mem_filter] at hq
    rw [(Repo.scan_mem hn q).1 hq.1] at hr
    cases hr
  | some r =>
  have hu := onDisk_uuid hn hr
  subst hu
  have hm := (Repo.scan_mem hn r).2 hr
  rw [Option.map_some]
  split
  · rename_i hl
    exact a2 r (by rw [List.mem_filter]; exact ⟨hm, by simpa using hl⟩)
  · rename_i hl
    refine (a3 r.uuid ?_).trans hr
    intro q hq he
    rw [List.mem_filter] at hq
    have : q = r := eq_of_uuid (Repo.scan_nodup s.src.repo) hq.1 hm he
    subst this
    exact hl (by simpa using hq.2)

/-! ### `backy verify` -/

/-- One revision of the loop. -/
theorem mainVerify_found (env : Env) (order : List Hash → List Hash) {s : Sys} (hn : Named s.src.repo.files) {r : Rev}
    (hr : onDisk s.src.repo.files r.uuid = some r) :
    r ∈ s.connect.src.repo.history ∧
    (mainVerify env order r.uuid s).2 = { s.connect with src := (Src.verify env order s.connect.src r).2 } ∧
    ((mainVerify env order r.uuid s).1 = 0 ↔ (Src.verify env order s.connect.src r).1 = .ok ()) := by
  have hm : r ∈ s.connect.src.repo.history := (Repo.scan_mem hn r).2 hr
  refine ⟨hm, ?_⟩
  unfold mainVerify
  have hf : Backup.findByUuid s.connect.src.repo r.uuid = .ok r := findByUuid_ok (Repo.scan_nodup s.src.repo) hm
  rw [hf]
  dsimp only
  generalize hg : Src.verify env order s.connect.src r = g
  obtain ⟨g1, g2⟩ := g
  cases g1 with
  | error e => exact ⟨rfl, by simp⟩
  | ok v => exact ⟨rfl, by simp⟩

theorem verifyLoop_cons (env : Env) (order : List Hash → List Hash) (r : Rev) (l : List Rev) (ret : Nat) (s : Sys) :
    verifyLoop env order (r :: l) ret s =
      verifyLoop env order l (max ret (mainVerify env order r.uuid s).1) (mainVerify env order r.uuid s).2 := rfl

theorem verifyLoop_ge (env : Env) (order : List Hash → List Hash) (l : List Rev) : ∀ (ret : Nat) (s : Sys), ret ≤ (verifyLoop env order l ret s).1 := by
  induction l with
  | nil => intro ret s; exact Nat.le_refl _
  | cons r l ih =>
    intro ret s
    rw [verifyLoop_cons]
    exact Nat.le_trans (Nat.le_max_left _ _) (ih _ _)

/-- The loop: revisions that were not selected are untouched; with exit code 0 each selected one is verified or gone. -/
theorem verifyLoop_spec (env : Env) (order : List Hash → List Hash) (ho : ∀ l, (order l).Perm l) (l : List Rev) : ∀ (ret : Nat) (s : Sys),
    Named s.src.repo.files → (l.map Rev.uuid).Nodup → (∀ r ∈ l, onDisk s.src.repo.files r.uuid = some r ∧ r.server = "") →
    (∀ u, (∀ r ∈ l, r.uuid ≠ u) → onDisk (verifyLoop env order l ret s).2.src.repo.files u = onDisk s.src.repo.files u) ∧
    ((verifyLoop env order l ret s).1 = 0 → ∀ r ∈ l, onDisk (verifyLoop env order l ret s).2.src.repo.files r.uuid = none ∨
      onDisk (verifyLoop env order l ret s).2.src.repo.files r.uuid = some { r with trust := .verified }) := by
  induction l with
  | nil => intro ret s _ _ _; exact ⟨fun _ _ => rfl, fun _ r hr => by cases hr⟩
  | cons r l ih =>
    intro ret s hn hd hl
    rw [List.map_cons, List.nodup_cons] at hd
    obtain ⟨hr, hloc⟩ := hl r (by simp)
    obtain ⟨_, h2, h3⟩ := mainVerify_found env order hn hr
    have hn1 : Named (mainVerify env order r.uuid s).2.src.repo.files := by
      rw [h2]; exact verify_named (s := s.connect.src) hn r
    have hother : ∀ u, u ≠ r.uuid → onDisk (mainVerify env order r.uuid s).2.src.repo.files u = onDisk s.src.repo.files u := by
      intro u hu
      rw [h2]
      exact verify_files (s := s.connect.src) hu
    obtain ⟨i1, i2⟩ := ih (max ret (mainVerify env order r.uuid s).1) (mainVerify env order r.uuid s).2 hn1 hd.2 (by
      intro q hq
      refine ⟨?_, (hl q (by simp [hq])).2⟩
      rw [hother _ (by intro he; exact hd.1 (by rw [← he]; exact List.mem_map_of_mem (f := Rev.uuid) hq))]
      exact (hl q (by simp [hq])).1)
    have hne : ∀ q ∈ l, q.uuid ≠ r.uuid := fun q hq he => hd.1 (by rw [← he]; exact List.mem_map_of_mem (f := Rev.uuid) hq)
    rw [verifyLoop_cons]
    refine ⟨?_, ?_⟩
    · intro u hu
      rw [i1 u (fun q hq => hu q (by simp [hq])), hother u (fun he => hu r (by simp) he.symm)]
    · intro h0 q hq
      have h0 : (verifyLoop env order l (max ret (mainVerify env order r.uuid s).1) (mainVerify env order r.uuid s).2).1 = 0 := h0
      rcases List.mem_cons.1 hq with rfl | hq
      · rw [i1 q.uuid hne, h2]
        have hz : (mainVerify env order q.uuid s).1 = 0 := by
          have := verifyLoop_ge env order l (max ret (mainVerify env order q.uuid s).1) (mainVerify env order q.uuid s).2
          omega
        obtain ⟨c1, c2⟩ := C19_verified_or_removed_partial env order ho s.connect.src q hloc (h3.1 hz)
        by_cases hc : ∀ h, Refers s.connect.src.w q.uuid h → Readable env s.connect.src.w h ∨ ∃ v, IsVerified s.connect.src.repo v ∧ Refers s.connect.src.w v.uuid h
        · exact .inr (c1 hc)
        · exact .inl (c2 hc)
      · exact i2 h0 q hq

/-- **C109** `backy verify` without `-r`: if it exits with 0, no revision of this server is distrusted any more: each that was is verified and
otherwise as before, or has been removed.  Whatever the exit code, all other revisions are as they were. -/
theorem C109_verify (env : Env) (x : Outside) (ho : ∀ l, (x.rbd.order l).Perm l) (dry : Bool) (s : Sys) (hn : Named s.src.repo.files) :
    let out := mainArgs env x dry .verify none s
    ∀ u r, onDisk s.src.repo.files u = some r →
      ((r.trust ≠ .distrusted ∨ r.server ≠ "") → onDisk out.2.src.repo.files u = some r) ∧
      (r.trust = .distrusted → r.server = "" → out.1 = 0 →
        onDisk out.2.src.repo.files u = none ∨ onDisk out.2.src.repo.files u = some { r with trust := .verified }) := by
  dsimp only
  intro u r hr
  rw [show mainArgs env x dry .verify none s = main env x dry (.verify "trust:distrusted&local") s from rfl]
  have hu := onDisk_uuid hn hr
  subst hu
  have hm := (Repo.scan_mem hn r).2 hr
  unfold main
  cases hx : x.sch with
  | none => exact ⟨fun _ => hr, fun _ _ h => by cases h⟩
  | some sch =>
    have hnd := nodup_of_map_uuid (Repo.scan_nodup s.src.repo)
    have hf : findRevisions ⟨s.connect.src.repo.history, x.pd⟩ "trust:distrusted&local" =
        .ok (s.src.repo.scan.history.filter (fun r => decide (r.trust = .distrusted ∧ r.server = ""))) := find_suspect _ hnd
    simp only [Cmd.run, verifyCmd, hf]
    obtain ⟨h1, h2⟩ := verifyLoop_spec env x.rbd.order ho (s.src.repo.scan.history.filter (fun r => decide (r.trust = .distrusted ∧ r.server = "")))
      0 s.connect hn ((Repo.scan_nodup s.src.repo).sublist (List.filter_sublist.map _)) (by
        intro q hq
        rw [List.mem_filter] at hq
        exact ⟨(Repo.scan_mem hn q).1 hq.1, by have := hq.2; simp at this; exact this.2⟩)
    refine ⟨fun hnot => ?_, fun a1 a2 h0 => ?_⟩
    · rw [h1 r.uuid]
      · exact hr
      · intro q hq he
        rw [List.mem_filter] at hq
        have : q = r := eq_of_uuid (Repo.scan_nodup s.src.repo) hq.1 hm he
        subst this
        have := hq.2
        simp at this
        rcases hnot with h | h
        · exact h this.1
        · exact h this.2
    · exact h2 (by simp only [exitCode, Ret.code] at h0; omega) r (by rw [List.mem_filter]; exact ⟨hm, by simp [a1, a2]⟩)

/-! ### After any history -/

/-- A complete revision that is verified while the store is sound. -/
theorem verify_complete {env : Env} {taken : Dict String Bytes} {s : Src} (h : Mem env taken s) {order : List Hash → List Hash}
    (ho : ∀ l, (order l).Perm l) {r : Rev} (hx : r ∈ s.repo.history) (hl : r.server = "") (hc : r.clean = true) :
    onDisk (Src.verify env order s r).2.repo.files r.uuid = some { r with trust := .verified } := by
  have hr := (h.sync.mem r).1 hx
  have hmap : ∀ q ∈ s.repo.getHistory true true, ∃ m, s.w.metas.get? q.uuid = some (some m) := by
    intro q hq
    obtain ⟨q1, q2, q3⟩ := mem_getHistory.1 hq
    obtain ⟨c, _, m, m1, _⟩ := h.disk.good _ _ ((h.sync.mem q).1 q1) q3 q2
    exact ⟨m, m1⟩
  have hv : ∃ cand, verifyCandidates order s r = .ok cand := by
    obtain ⟨m, hm⟩ := hmap r (mem_getHistory.2 ⟨hx, hc, hl⟩)
    obtain ⟨used, hu⟩ := usedChunks_total (w := s.w) (l := (s.repo.getHistory true true).filter (fun x => decide (x.trust = .verified)))
      (fun q hq => hmap q (List.mem_filter.1 hq).1) []
    obtain ⟨hs, hh⟩ : ∃ hs, mappedHashes s.w r.uuid = .ok hs := by
      unfold mappedHashes File.open
      simp only [hm]
      exact ⟨_, rfl⟩
    unfold verifyCandidates
    rw [hu, hh]
    exact ⟨_, rfl⟩
  obtain ⟨cand, hv⟩ := hv
  have hnone : firstBad env s.w cand = none := by
    cases hb : firstBad env s.w cand with
    | none => rfl
    | some b =>
      exfalso
      have hmiss := firstBad_some h.disk.wok cand hb
      have hbm := (firstBad_mem hb).1
      rw [(verifyCandidates_ok ho hv).1] at hbm
      obtain ⟨⟨m, m1, m2⟩, _⟩ := hbm
      obtain ⟨c, _, m', n1, _, n3, _⟩ := h.disk.good _ _ hr hl hc
      rw [n1] at m1
      cases m1
      obtain ⟨d, hd⟩ := n3 _ m2
      rw [hmiss] at hd
      cases hd
  have hm : Src.verifyMark env order s r = (.ok (), { s with repo := s.repo.store { r with trust := .verified } }) := by
    unfold Src.verifyMark
    simp [hv, hnone, hl]
  unfold Src.verify
  rw [hm]
  dsimp only
  rw [gc_repo]
  show onDisk (s.repo.store { r with trust := .verified }).files r.uuid = _
  rw [store_files, if_pos rfl]

/-- The loop over complete or incomplete revisions while the store is sound. -/
theorem verifyLoop_good (env : Env) (order : List Hash → List Hash) (ho : ∀ l, (order l).Perm l) {L : List Bytes} (hL : CollFree env.H L)
    (l : List Rev) : ∀ (ret : Nat) (s : Sys), Good env s → s.src.w.log ⊆ L → (l.map Rev.uuid).Nodup →
    (∀ r ∈ l, onDisk s.src.repo.files r.uuid = some r ∧ r.server = "") →
    Steps env s (verifyLoop env order l ret s).2 ∧ (verifyLoop env order l ret s).2.src.w.log ⊆ L ∧
    (verifyLoop env order l ret s).2.ceph.taken = s.ceph.taken ∧
    (∀ r ∈ l, r.clean = true → onDisk (verifyLoop env order l ret s).2.src.repo.files r.uuid = some { r with trust := .verified }) ∧
    ((∀ u r, onDisk s.src.repo.files u = some r → r.server = "" → r.clean = true) → (verifyLoop env order l ret s).1 = ret) := by
  induction l with
  | nil => intro ret s _ hlog _ _; exact ⟨.nil _, hlog, rfl, (fun r hr => by cases hr), fun _ => rfl⟩
  | cons r l ih =>
    intro ret s hg hlog hd hl
    rw [List.map_cons, List.nodup_cons] at hd
    obtain ⟨hr, hloc⟩ := hl r (by simp)
    have hn := hg.disk.named
    obtain ⟨h1, h2, h3⟩ := mainVerify_found env order hn hr
    have hm := hg.disk.connect
    have hstep : Step env s (mainVerify env order r.uuid s).2 := by rw [h2]; exact .verify s order r h1
    have hlog1 : (mainVerify env order r.uuid s).2.src.w.log ⊆ L := by
      rw [h2]
      show (Src.verify env order s.connect.src r).2.w.log ⊆ L
      rw [verify_log]; exact hlog
    have hg1 := hg.step hL hstep hlog1
    have hother : ∀ u, u ≠ r.uuid → onDisk (mainVerify env order r.uuid s).2.src.repo.files u = onDisk s.src.repo.files u := by
      intro u hu
      rw [h2]
      exact verify_files (s := s.connect.src) hu
    have hne : ∀ q ∈ l, q.uuid ≠ r.uuid := fun q hq he => hd.1 (by rw [← he]; exact List.mem_map_of_mem (f := Rev.uuid) hq)
    have hl1 : ∀ q ∈ l, onDisk (mainVerify env order r.uuid s).2.src.repo.files q.uuid = some q ∧ q.server = "" := by
      intro q hq
      rw [hother _ (hne q hq)]
      exact hl q (by simp [hq])
    obtain ⟨i1, i2, i3, i4, i5⟩ := ih (max ret (mainVerify env order r.uuid s).1) (mainVerify env order r.uuid s).2 hg1 hlog1 hd.2 hl1
    have hrest : onDisk (verifyLoop env order l (max ret (mainVerify env order r.uuid s).1) (mainVerify env order r.uuid s).2).2.src.repo.files r.uuid =
        onDisk (mainVerify env order r.uuid s).2.src.repo.files r.uuid :=
      (verifyLoop_spec env order ho l _ _ hg1.disk.named hd.2 hl1).1 r.uuid hne
    rw [verifyLoop_cons]
    refine ⟨?_, i2, ?_, ?_, ?_⟩
    · generalize (verifyLoop env order l (max ret (mainVerify env order r.uuid s).1) (mainVerify env order r.uuid s).2).2 = t at i1
      clear i2 i3 i4 i5 hrest
      induction i1 with
      | nil => exact .cons (.nil _) hstep
      | cons _ h' ih => exact .cons ih h'
    · rw [i3, h2]
      rfl
    · intro q hq hc
      rcases List.mem_cons.1 hq with rfl | hq
      · rw [hrest, h2]
        exact verify_complete hm ho h1 hloc hc
      · exact i4 q hq hc
    · intro hall
      have hall' : ∀ q ∈ s.connect.src.repo.history, q.server = "" → q.clean = true := fun q hq hs =>
        hall q.uuid q ((hm.sync.mem q).1 hq) hs
      have hz := h3.2 (hm.verify_ok hall' h1 hloc order)
      rw [i5, hz, Nat.max_zero]
      intro u q hq hs
      by_cases hu : u = r.uuid
      · subst hu
        rw [h2] at hq
        have := verify_complete hm ho h1 hloc (hall _ _ hr hloc)
        have hq : onDisk (Src.verify env order s.connect.src r).2.repo.files r.uuid = some q := hq
        rw [this] at hq
        cases hq
        have : r.clean = true := hall _ _ hr hloc
        exact this
      · rw [hother u hu] at hq
        exact hall u q hq hs

/-- **C109** After any history (the store is undamaged): `backy verify` without `-r` turns every distrusted complete revision of this server into a
verified one that can be restored to its snapshot; if all revisions of this server are complete, it exits with 0. -/
theorem C109_verify_heals (env : Env) (s0 s : Sys) (h0 : Initial s0) (hs : Steps env s0 s) (hcoll : CollFree env.H s.src.w.log)
    (x : Outside) (sch : Schedule) (hx : x.sch = some sch) (ho : ∀ l, (x.rbd.order l).Perm l) (dry : Bool) :
    let out := mainArgs env x dry .verify none s
    (∀ u r, onDisk s.src.repo.files u = some r → r.server = "" → r.clean = true → r.trust = .distrusted →
      onDisk out.2.src.repo.files u = some { r with trust := .verified } ∧
      ∃ c, s.ceph.taken.get? u = some c ∧ ∀ target, restore env out.2.connect.src.w { r with trust := .verified } target = (.ok (), some c)) ∧
    ((∀ u r, onDisk s.src.repo.files u = some r → r.server = "" → r.clean = true) → out.1 = 0) := by
  dsimp only
  show (∀ u r, _ → _ → _ → _ → onDisk (main env x dry (.verify "trust:distrusted&local") s).2.src.repo.files u = _ ∧
    ∃ c, _ ∧ ∀ target, restore env (main env x dry (.verify "trust:distrusted&local") s).2.connect.src.w _ target = _) ∧
    (_ → (main env x dry (.verify "trust:distrusted&local") s).1 = 0)
  have hg := (Good.initial (env := env) h0).steps hcoll hs (fun _ h => h)
  have hn := hg.disk.named
  have hnd := nodup_of_map_uuid (Repo.scan_nodup s.src.repo)
  have hf : findRevisions ⟨s.connect.src.repo.history, x.pd⟩ "trust:distrusted&local" =
      .ok (s.src.repo.scan.history.filter (fun r => decide (r.trust = .distrusted ∧ r.server = ""))) := find_suspect _ hnd
  have hgc : Good env s.connect := ⟨hg.disk.connect.disk, hg.snaps⟩
  obtain ⟨a1, a2, a3, a4, a5⟩ := verifyLoop_good env x.rbd.order ho hcoll
    (s.src.repo.scan.history.filter (fun r => decide (r.trust = .distrusted ∧ r.server = ""))) 0 s.connect hgc (fun _ h => h)
    ((Repo.scan_nodup s.src.repo).sublist (List.filter_sublist.map _)) (by
      intro q hq
      rw [List.mem_filter] at hq
      exact ⟨(Repo.scan_mem hn q).1 hq.1, by have := hq.2; simp at this; exact this.2⟩)
  simp only [main, hx, Cmd.run, verifyCmd, hf]
  refine ⟨?_, ?_⟩
  · intro u r hr hl hc ht
    have hu := onDisk_uuid hn hr
    subst hu
    have hm := (Repo.scan_mem hn r).2 hr
    have h1 := a4 r (by rw [List.mem_filter]; exact ⟨hm, by simp [ht, hl]⟩) hc
    refine ⟨h1, ?_⟩
    have hgood := hgc.steps hcoll a1 a2
    obtain ⟨c, c1, c2⟩ := hgood.disk.good r.uuid _ h1 hl hc
    rw [a3] at c1
    have c1 : s.ceph.taken.get? r.uuid = some c := c1
    refine ⟨c, c1, fun target => ?_⟩
    exact C20_restore_file env _ _ c hgood.disk.connect.disk.wok c2 (fun a ha b hb => hcoll a (a2 ha) b (a2 hb)) target
  · intro hall
    have := a5 hall
    rw [this]
    rfl

/-- **C109** `backy rm` needs `-r`: without it nothing is removed and the exit code is 2. -/
theorem C109_rm (env : Env) (x : Outside) (dry : Bool) (s : Sys) : mainArgs env x dry .rm none s = (2, s) := rfl

/-- Test: after two backups, `backy distrust` and `backy verify` meet the hypotheses. -/
theorem exDistrusted_steps : Steps Test.env exNew (mainArgs Test.env exOutside false .distrust none exSecond).2 := by
  have h : (mainArgs Test.env exOutside false .distrust none exSecond).2 = { exSecond.connect with src := { exSecond.connect.src with
      repo := (exSecond.connect.src.repo.distrust (exSecond.connect.src.repo.history.filter (fun r => decide (r.server = "")))).2 } } := by
    show (main Test.env exOutside false (.repo (.distrust "local")) exSecond).2 = _
    have hf : findRevisions ⟨exSecond.connect.src.repo.history, exOutside.pd⟩ "local" = _ := find_local ⟨exSecond.connect.src.repo.history, exOutside.pd⟩
    simp only [main, exOutside, Cmd.run, RCmd.run, withRevs] at hf ⊢
    rw [hf]
    simp only [ifFree, noneRet]
    split <;> rfl
  rw [h]
  exact .cons exSecond_steps (.distrust exSecond _ (fun r hr => (List.mem_filter.1 hr).1))

example : (mainArgs Test.env exOutside false .distrust none exSecond).1 = 0 ∧
    (mainArgs Test.env exOutside false .verify none (mainArgs Test.env exOutside false .distrust none exSecond).2).1 = 0 := by
  have hg := (Good.initial (env := Test.env) exNew_initial).steps (Test.collFree _) exSecond_steps (fun _ h => h)
  have hd := (C109_distrust Test.env exOutside exSchedule rfl false exSecond hg.disk.named).1 rfl
  refine ⟨hd.1, (C109_verify_heals Test.env exNew _ exNew_initial exDistrusted_steps (Test.collFree _) exOutside exSchedule rfl
    (fun l => List.Perm.refl _) false).2 ?_⟩
  intro u r hr hl
  have hboth : ∀ v q, onDisk exSecond.src.repo.files v = some q → q.clean = true := by
    intro v q hq
    have hm := (Repo.scan_mem hg.disk.named q).2 (by rw [onDisk_uuid hg.disk.named hq]; exact hq)
    exact (by decide +kernel : ∀ q ∈ exSecond.src.repo.scan.history, q.clean = true) q hm
  rw [hd.2.2 u, Option.map_eq_some_iff] at hr
  obtain ⟨q, hq, rfl⟩ := hr
  have := hboth u q hq
  split <;> exact this

theorem find_all (c : Ctx) : findRevisions c "all" = .ok c.history := by
  have h := C37_expressions c (atomExpr "all") (plainWord_of (s := "all") (by decide +kernel) (by decide)) [] (by intro c hc; simp at hc)
  have e : String.ofList ((atomExpr "all").text []) = "all" := by decide +kernel
  have h2 : (semOf c).select "all" = some (c.history.filter Selector.all.selects) := C37_selectors c .all
  have h3 : ((atomExpr "all").meaning (semOf c)).revs = some (c.history.filter Selector.all.selects) := h2
  rw [e, h3] at h
  have h4 : c.history.filter Selector.all.selects = c.history := List.filter_eq_self.mpr (fun _ _ => rfl)
  rw [h4] at h
  cases hf : findRevisions c "all" with
  | error e => rw [hf] at h; cases h
  | ok l => rw [hf] at h; cases h; rfl

/-- **C109** `backy tags` without `-r` and `--expect`, if nobody holds the lock and the tags are known (or it is forced): it exits with 0
and the tags of every revision, also of those of other servers, are changed. -/
theorem C109_tags (env : Env) (x : Outside) (sch : Schedule) (hx : x.sch = some sch) (dry : Bool) (a : Action) (auto : Bool)
    (text : String) (force : Bool) (s : Sys) (hn : Named s.src.repo.files) (hb : x.busy = false)
    (hk : force = true ∨ a = .remove ∨ ∀ t ∈ parseTags text, isManual t = true ∨ t ∈ sch.keys) :
    let out := mainArgs env x dry (.tags a.name auto none text force) none s
    out.1 = 0 ∧ SameData s out.2 ∧
      ∀ u, onDisk out.2.src.repo.files u = (onDisk s.src.repo.files u).bind (changed a (parseTags text) auto) := by
  dsimp only
  show (main env x dry (.repo (.tags a.name auto none "all" text force)) s).1 = 0 ∧ _
  have hd := (C67_tags env x sch hx dry a auto none "all" text force s).1
  have hkn : ¬ (force = false ∧ a ≠ .remove ∧ ∃ t ∈ parseTags text, isManual t = false ∧ t ∉ sch.keys) := by
    rintro ⟨h1, h2, t, h3, h4, h5⟩
    rcases hk with hk | hk | hk
    · rw [h1] at hk; cases hk
    · exact h2 hk
    · rcases hk t h3 with hk | hk
      · rw [h4] at hk; cases hk
      · exact h5 hk
  obtain ⟨h1, h2, h3⟩ := (((C35_tag_change s.connect.src.repo sch x.pd a "all" (parseTags text) none auto force).2 _
    (find_all _)).2 hkn).2 (fun _ _ _ h => by cases h)
  have hmain : main env x dry (.repo (.tags a.name auto none "all" text force)) s =
      (0, { s.connect with src := { s.connect.src with
        repo := (s.connect.src.repo.tagsOp sch x.pd a.name "all" (parseTags text) none auto force).2 } }) := by
    simp only [main, hx, Cmd.run, RCmd.run, tagsRet, ifFree, hb, Option.map_none]
    generalize hg : s.connect.src.repo.tagsOp sch x.pd a.name "all" (parseTags text) none auto force = g at *
    obtain ⟨g1, g2⟩ := g
    dsimp only at h1
    subst h1
    rfl
  refine ⟨by rw [hmain], hd, fun u => ?_⟩
  show onDisk (main env x dry (.repo (.tags a.name auto none "all" text force)) s).2.src.repo.files u = _
  rw [hmain]
  show onDisk (s.connect.src.repo.tagsOp sch x.pd a.name "all" (parseTags text) none auto force).2.files u = _
  have hsc : s.connect.src.repo.scan.history = s.src.repo.scan.history := rfl
  cases hr : onDisk s.src.repo.files u with
  | none =>
    rw [h3 u, show onDisk s.connect.src.repo.files u = onDisk s.src.repo.files u from rfl, hr]
    · rfl
    · rintro r hm rfl
      rw [hsc, Repo.scan_mem hn r, hr] at hm
      cases hm
  | some r =>
    have hu := onDisk_uuid hn hr
    subst hu
    exact h2 r (by rw [hsc]; exact (Repo.scan_mem hn r).2 hr)

/-- C109_tags: adding a manual tag to both backups. -/
example : (mainArgs Test.env exOutside false (.tags "add" false none "manual:x" false) none exSecond).1 = 0 :=
  (C109_tags Test.env exOutside exSchedule rfl false .add false "manual:x" false exSecond
    ((Good.initial (env := Test.env) exNew_initial).steps (Test.collFree _) exSecond_steps (fun _ h => h)).disk.named rfl
    (.inr (.inr (by decide +kernel)))).1

end Verif.Commands
