import Verif.Props.Defaults
import Verif.Props.Damage
/-!
# Property C136: `backy distrust` and `backy verify` heal a damaged store
-/
set_option linter.dupNamespace false
namespace Verif.Commands
open Verif Verif.Chunked Verif.Spec Verif.Rbd Verif.Repo Verif.Files Verif.Backup Verif.Cli Verif.Repo.Spec

/-- The mapping file of the revision can be read, and every chunk it refers to holds the content that was hashed. -/
structure Intact (env : Env) (w : World) (u : String) : Prop where
  image : ∃ m, w.metas.get? u = some (some m)
  chunks : ∀ h, Refers w u h → Readable env w h

/-- All revisions of this server that are marked as verified are intact. -/
def Checked (env : Env) (s : Sys) : Prop :=
  ∀ u r, onDisk s.src.repo.files u = some r → r.server = "" → r.trust = .verified → Intact env s.src.w u

theorem Refers.of_metas {w w' : World} {u : String} {h : Hash} (hm : w'.metas = w.metas) (hr : Refers w' u h) : Refers w u h := by
  obtain ⟨m, m1, m2⟩ := hr
  rw [hm] at m1
  exact ⟨m, m1, m2⟩

/-- What a successful verification leaves. -/
theorem verify_leaves {env : Env} {order : List Hash → List Hash} (ho : ∀ l, (order l).Perm l) {s : Src} (hs : Sync s.repo)
    {r : Rev} (hr : r ∈ s.repo.history) (hok : (Src.verify env order s r).1 = .ok ()) :
    Sync (Src.verify env order s r).2.repo ∧
    (∀ h, Readable env s.w h → Referenced (Src.verify env order s r).2 h →
      (Src.verify env order s r).2.w.chunks.get? h = s.w.chunks.get? h) ∧
    (∀ h x, (Src.verify env order s r).2.w.chunks.get? h = some x → Referenced (Src.verify env order s r).2 h) := by
  have hmark : Sync (Src.verifyMark env order s r).2.repo ∧
      (∀ h, Readable env s.w h → (Src.verifyMark env order s r).2.w.chunks.get? h = s.w.chunks.get? h) := by
    unfold Src.verifyMark
    cases hcand : verifyCandidates order s r with
    | error e => exact ⟨hs, fun _ _ => rfl⟩
    | ok cand =>
      dsimp only
      cases hb : firstBad env s.w cand with
      | some x =>
        obtain ⟨b1, b2⟩ := firstBad_mem hb
        refine ⟨hs.remove ⟨r, hr, rfl⟩ false, fun h hh => ?_⟩
        dsimp only
        rw [Dict.get?_erase, if_neg]
        rintro rfl
        exact b2 hh
      | none =>
        dsimp only
        split
        · exact ⟨hs, fun _ _ => rfl⟩
        · exact ⟨hs.store hr rfl, fun _ _ => rfl⟩
  unfold Src.verify at hok ⊢
  generalize Src.verifyMark env order s r = g at *
  obtain ⟨g1, t⟩ := g
  cases g1 with
  | error e => cases hok
  | ok v =>
    dsimp only at *
    obtain ⟨c1, c2, _⟩ := C08_gc_exact t hok
    have href : ∀ h, Referenced t.gc.2 h ↔ Referenced t h := by
      intro h
      unfold Referenced
      rw [gc_repo, (gc_shrunk t).metas]
    refine ⟨by rw [gc_repo]; exact hmark.1, fun h h1 h2 => ?_, fun h x hx => ?_⟩
    · rw [c1 h ((href h).1 h2)]
      exact hmark.2 h h1
    · by_contra hno
      rw [c2 h (fun hh => hno ((href h).2 hh))] at hx
      cases hx

/-- A verification succeeds if the mapping files can be read. -/
theorem verify_total {env : Env} {order : List Hash → List Hash} {s : Src}
    (hm : ∀ r ∈ s.repo.history, r.server = "" → ∃ m, s.w.metas.get? r.uuid = some (some m)) {r : Rev} (hr : r ∈ s.repo.history)
    (hl : r.server = "") : (Src.verify env order s r).1 = .ok () := by
  have hmark : (Src.verifyMark env order s r).1 = .ok () ∧
      ∀ x ∈ (Src.verifyMark env order s r).2.repo.history, x.server = "" →
        ∃ m, (Src.verifyMark env order s r).2.w.metas.get? x.uuid = some (some m) := by
    unfold Src.verifyMark
    have hcand : ∃ l, verifyCandidates order s r = .ok l := by
      unfold verifyCandidates
      obtain ⟨used, hu⟩ := usedChunks_total (w := s.w)
        (l := (s.repo.getHistory true true).filter (fun x => decide (x.trust = .verified))) (by
          intro x hx
          obtain ⟨h1, h2, h3⟩ := mem_getHistory.1 (List.mem_of_mem_filter hx)
          exact hm x h1 h3) []
      rw [hu]
      obtain ⟨m, m1⟩ := hm r hr hl
      dsimp only
      rw [mappedHashes_some m1]
      exact ⟨_, rfl⟩
    obtain ⟨cand, hcand⟩ := hcand
    rw [hcand]
    dsimp only
    cases hb : firstBad env s.w cand with
    | some x =>
      refine ⟨rfl, fun y hy => ?_⟩
      dsimp only at hy
      have : s.repo.remove r = s.repo.drop r := by simp [Repo.remove, hl]
      rw [this] at hy
      exact hm y (List.mem_of_mem_filter hy)
    | none =>
      dsimp only
      rw [if_neg (by simp [hl])]
      refine ⟨rfl, fun y hy hys => ?_⟩
      change y ∈ (s.repo.assign { r with trust := .verified }).history at hy
      simp only [Repo.assign, List.mem_map] at hy
      obtain ⟨z, z1, z2⟩ := hy
      split at z2
      · subst z2; exact hm r hr hl
      · subst z2; exact hm z z1 hys
  unfold Src.verify
  generalize Src.verifyMark env order s r = g at *
  obtain ⟨g1, t⟩ := g
  obtain ⟨h1, h2⟩ := hmark
  dsimp only at *
  subst h1
  dsimp only
  refine (C08_gc_succeeds_iff t).1.2 fun x hx => ?_
  obtain ⟨x1, x2⟩ := mem_localHistory.1 hx
  exact h2 x x1 x2

/-- What one verification by `backy verify` does, if its exit code is 0. -/
structure Verifies (env : Env) (s t : Sys) : Prop where
  named : Named t.src.repo.files
  checked : Checked env t
  ceph : t.ceph = s.ceph
  shrunk : Shrunk s.src.w.fresh t.src.w.fresh
  seen : s.src.w.seen = [] → t.src.w.seen = []
  intact : ∀ u r, onDisk s.src.repo.files u = some r → r.server = "" → Intact env s.src.w u →
    Intact env t.src.w u ∧ ∃ r', onDisk t.src.repo.files u = some r' ∧ r'.server = ""

theorem mainVerify_verifies (env : Env) (order : List Hash → List Hash) (ho : ∀ l, (order l).Perm l) {s : Sys}
    (hn : Named s.src.repo.files) (hc : Checked env s) {r : Rev} (hr : onDisk s.src.repo.files r.uuid = some r) (hl : r.server = "")
    (h0 : (mainVerify env order r.uuid s).1 = 0) :
    Verifies env s (mainVerify env order r.uuid s).2 ∧
    ∀ h x, (mainVerify env order r.uuid s).2.src.w.chunks.get? h = some x → Referenced (mainVerify env order r.uuid s).2.connect.src h := by
  obtain ⟨f1, f2, f3⟩ := mainVerify_found env order hn hr
  have hok := f3.1 h0
  have hsync : Sync s.connect.src.repo := Sync.scan hn
  obtain ⟨l1, l2, l3⟩ := verify_leaves ho hsync f1 hok
  obtain ⟨c1, c2⟩ := C19_verified_or_removed_partial env order ho s.connect.src r hl hok
  have hsh := verify_shrunk env order s.connect.src r
  have hfiles : ∀ u, u ≠ r.uuid → onDisk (Src.verify env order s.connect.src r).2.repo.files u = onDisk s.src.repo.files u :=
    fun u hu => verify_files (s := s.connect.src) hu
  rw [f2]
  generalize Src.verify env order s.connect.src r = g at *
  obtain ⟨g1, t⟩ := g
  dsimp only at *
  -- a revision of `t` whose chunks could be read before is intact
  have key : ∀ u q, onDisk t.repo.files u = some q → q.server = "" → Intact env s.src.w u → Intact env t.w u := by
    intro u q hq hql hi
    have hu := onDisk_uuid l1.named hq
    refine ⟨by rw [hsh.metas]; exact hi.image, fun h hh => ?_⟩
    have hrd := hi.chunks h (Refers.of_metas (w := s.src.w) (w' := t.w) hsh.metas hh)
    obtain ⟨m, m1, m2⟩ := hh
    obtain ⟨d, d1, d2⟩ := hrd
    have := l2 h ⟨d, d1, d2⟩ ⟨q, mem_localHistory.2 ⟨(l1.mem q).2 (by rw [hu]; exact hq), hql⟩, m, by rw [hu]; exact m1, m2⟩
    exact ⟨d, this.trans d1, d2⟩
  -- the chunks of revisions that count as verified can be read
  have hver : ∀ h, (∃ v, IsVerified s.connect.src.repo v ∧ Refers s.connect.src.w v.uuid h) → Readable env s.src.w h := by
    rintro h ⟨v, hv, hh⟩
    exact (hc v.uuid v ((Repo.scan_mem hn v).1 hv.mem) hv.loc hv.trust).chunks h hh
  have himage : ∃ m, s.src.w.metas.get? r.uuid = some (some m) := by
    have := (mainVerify_found env order hn hr).2.2.1 h0
    unfold Src.verify Src.verifyMark at this
    cases hcand : verifyCandidates order s.connect.src r with
    | error e => rw [hcand] at this; cases this
    | ok l => exact (verifyCandidates_ok ho hcand).2
  refine ⟨⟨l1.named, ?_, rfl, ⟨hsh.metas, hsh.log, fun _ h => h, hsh.chunks⟩, fun _ => List.eq_nil_of_subset_nil hsh.seen, ?_⟩, ?_⟩
  · intro u q hq hql hqt
    by_cases hu : u = r.uuid
    · subst hu
      refine key _ q hq hql ⟨himage, ?_⟩
      by_contra hx
      have hrem : onDisk t.repo.files r.uuid = none := c2 (fun ha => hx (fun h hh => (ha h hh).elim id (hver h)))
      have hq : onDisk t.repo.files r.uuid = some q := hq
      rw [hrem] at hq
      cases hq
    · exact key u q hq hql (hc u q ((hfiles u hu).symm.trans hq) hql hqt)
  · intro u q hq hql hi
    by_cases hu : u = r.uuid
    · subst hu
      have hnew : onDisk t.repo.files r.uuid = some { r with trust := .verified } := c1 (fun h hh => .inl (hi.chunks h hh))
      exact ⟨key _ _ hnew hl hi, _, hnew, hl⟩
    · have hq' : onDisk t.repo.files u = some q := (hfiles u hu).trans hq
      exact ⟨key u q hq' hql hi, q, hq', hql⟩
  · intro h x hx
    obtain ⟨q, q1, m, m1, m2⟩ := l3 h x hx
    obtain ⟨q2, q3⟩ := mem_localHistory.1 q1
    refine ⟨q, mem_localHistory.2 ⟨?_, q3⟩, m, m1, m2⟩
    exact (Repo.scan_mem l1.named q).2 ((l1.mem q).1 q2)

theorem Verifies.refl {env : Env} {s : Sys} (hn : Named s.src.repo.files) (hc : Checked env s) : Verifies env s s :=
  ⟨hn, hc, rfl, Shrunk.refl _, id, fun _ r h1 h2 h3 => ⟨h3, r, h1, h2⟩⟩

theorem Verifies.trans {env : Env} {a b c : Sys} (h : Verifies env a b) (h' : Verifies env b c) : Verifies env a c := by
  refine ⟨h'.named, h'.checked, h'.ceph.trans h.ceph, h.shrunk.trans h'.shrunk, h'.seen ∘ h.seen, fun u r h1 h2 h3 => ?_⟩
  obtain ⟨i1, r', r1, r2⟩ := h.intact u r h1 h2 h3
  exact h'.intact u r' r1 r2 i1

theorem verifyLoop_verifies (env : Env) (order : List Hash → List Hash) (ho : ∀ l, (order l).Perm l) : ∀ (l : List Rev) (ret : Nat) (s : Sys),
    Named s.src.repo.files → Checked env s → (l.map Rev.uuid).Nodup →
    (∀ r ∈ l, onDisk s.src.repo.files r.uuid = some r ∧ r.server = "") → (verifyLoop env order l ret s).1 = 0 →
    Verifies env s (verifyLoop env order l ret s).2 ∧
    ((l ≠ [] ∨ ∀ h x, s.src.w.chunks.get? h = some x → Referenced s.connect.src h) →
      ∀ h x, (verifyLoop env order l ret s).2.src.w.chunks.get? h = some x → Referenced (verifyLoop env order l ret s).2.connect.src h)
  | [], ret, s, hn, hc, _, _, _ => ⟨Verifies.refl hn hc, fun h => h.resolve_left (by simp)⟩
  | r :: l, ret, s, hn, hc, hd, hl, h0 => by
    rw [List.map_cons, List.nodup_cons] at hd
    obtain ⟨hr, hloc⟩ := hl r (by simp)
    rw [verifyLoop_cons] at h0 ⊢
    have hcode : (mainVerify env order r.uuid s).1 = 0 := by
      have := verifyLoop_ge env order l (max ret (mainVerify env order r.uuid s).1) (mainVerify env order r.uuid s).2
      omega
    obtain ⟨v1, v2⟩ := mainVerify_verifies env order ho hn hc hr hloc hcode
    have hne : ∀ q ∈ l, q.uuid ≠ r.uuid := fun q hq he => hd.1 (by rw [← he]; exact List.mem_map_of_mem (f := Rev.uuid) hq)
    have hl1 : ∀ q ∈ l, onDisk (mainVerify env order r.uuid s).2.src.repo.files q.uuid = some q ∧ q.server = "" := by
      intro q hq
      rw [mainVerify_files env order s r.uuid q.uuid (hne q hq)]
      exact hl q (by simp [hq])
    obtain ⟨i1, i2⟩ := verifyLoop_verifies env order ho l (max ret (mainVerify env order r.uuid s).1) (mainVerify env order r.uuid s).2
      v1.named v1.checked hd.2 hl1 h0
    exact ⟨v1.trans i1, fun _ => i2 (.inr v2)⟩

theorem mainVerify_total (env : Env) (order : List Hash → List Hash) {s : Sys} (hn : Named s.src.repo.files)
    (hm : ∀ u r, onDisk s.src.repo.files u = some r → r.server = "" → ∃ m, s.src.w.metas.get? u = some (some m)) {r : Rev}
    (hr : onDisk s.src.repo.files r.uuid = some r) (hl : r.server = "") :
    (mainVerify env order r.uuid s).1 = 0 ∧
    ∀ u q, onDisk (mainVerify env order r.uuid s).2.src.repo.files u = some q → q.server = "" →
      ∃ m, (mainVerify env order r.uuid s).2.src.w.metas.get? u = some (some m) := by
  obtain ⟨f1, f2, f3⟩ := mainVerify_found env order hn hr
  have hsync : Sync s.connect.src.repo := Sync.scan hn
  refine ⟨f3.2 (verify_total (s := s.connect.src) (fun q hq hql => hm q.uuid q ((hsync.mem q).1 hq) hql) f1 hl), fun u q hq hql => ?_⟩
  have hsh := verify_shrunk env order s.connect.src r
  have hmet : (mainVerify env order r.uuid s).2.src.w.metas = s.src.w.metas := by rw [f2]; exact hsh.metas
  rw [hmet]
  by_cases hu : u = r.uuid
  · subst hu; exact hm _ r hr hl
  · rw [mainVerify_files env order s r.uuid u hu] at hq
    exact hm u q hq hql

theorem verifyLoop_total (env : Env) (order : List Hash → List Hash) : ∀ (l : List Rev) (ret : Nat) (s : Sys),
    Named s.src.repo.files → (∀ u r, onDisk s.src.repo.files u = some r → r.server = "" → ∃ m, s.src.w.metas.get? u = some (some m)) →
    (l.map Rev.uuid).Nodup → (∀ r ∈ l, onDisk s.src.repo.files r.uuid = some r ∧ r.server = "") → (verifyLoop env order l ret s).1 = ret
  | [], _, _, _, _, _, _ => rfl
  | r :: l, ret, s, hn, hm, hd, hl => by
    rw [List.map_cons, List.nodup_cons] at hd
    obtain ⟨hr, hloc⟩ := hl r (by simp)
    obtain ⟨t1, t2⟩ := mainVerify_total env order hn hm hr hloc
    have hne : ∀ q ∈ l, q.uuid ≠ r.uuid := fun q hq he => hd.1 (by rw [← he]; exact List.mem_map_of_mem (f := Rev.uuid) hq)
    rw [verifyLoop_cons, t1, Nat.max_zero]
    refine verifyLoop_total env order l ret _ (mainVerify_named env order s hn r.uuid) t2 hd.2 fun q hq => ?_
    rw [mainVerify_files env order s r.uuid q.uuid (hne q hq)]
    exact hl q (by simp [hq])

/-- `backy distrust` and then `backy verify`, both without `-r`: the exit code of `verify` and the state afterwards. -/
def distrustVerify (env : Env) (x : Outside) (s : Sys) : Int × Sys :=
  mainArgs env x false .verify none (mainArgs env x false .distrust none s).2

theorem distrust_eq (env : Env) (x : Outside) (sch : Schedule) (hx : x.sch = some sch) (hb : x.busy = false) (s : Sys) :
    (mainArgs env x false .distrust none s).2 = { s.connect with src := { s.connect.src with
      repo := (s.connect.src.repo.distrust (s.connect.src.repo.history.filter (fun r => decide (r.server = "")))).2 } } := by
  show (main env x false (.repo (.distrust "local")) s).2 = _
  have hf : findRevisions ⟨s.connect.src.repo.history, x.pd⟩ "local" = _ := find_local ⟨s.connect.src.repo.history, x.pd⟩
  simp only [main, hx, Cmd.run, RCmd.run, withRevs] at hf ⊢
  rw [hf]
  simp only [ifFree, noneRet, hb]
  rw [if_neg (by simp)]
  split <;> rfl

theorem verifyLoop_log (env : Env) (order : List Hash → List Hash) : ∀ (l : List Rev) (ret : Nat) (s : Sys),
    (verifyLoop env order l ret s).2.src.w.log = s.src.w.log
  | [], _, _ => rfl
  | r :: l, ret, s => by
    rw [verifyLoop_cons, verifyLoop_log env order l]
    unfold mainVerify
    split
    · rfl
    · rename_i q hq
      have := verify_log env order s.connect.src q
      generalize Src.verify env order s.connect.src q = g at *
      obtain ⟨g1, g2⟩ := g
      cases g1 <;> exact this

theorem distrustVerify_log (env : Env) (x : Outside) (sch : Schedule) (hx : x.sch = some sch) (hb : x.busy = false) (s : Sys) :
    (distrustVerify env x s).2.src.w.log = s.src.w.log := by
  have hlog : (mainArgs env x false .distrust none s).2.src.w.log = s.src.w.log := by rw [distrust_eq env x sch hx hb]; rfl
  unfold distrustVerify
  generalize (mainArgs env x false .distrust none s).2 = d at *
  have hf : findRevisions ⟨d.connect.src.repo.history, x.pd⟩ "trust:distrusted&local" = _ :=
    find_suspect ⟨d.connect.src.repo.history, x.pd⟩ (nodup_of_map_uuid (Repo.scan_nodup d.src.repo))
  show (main env x false (.verify "trust:distrusted&local") d).2.src.w.log = _
  simp only [main, hx, Cmd.run, verifyCmd, hf]
  exact (verifyLoop_log _ _ _ _ _).trans hlog

/-- What `backy distrust` leaves, and which revisions `backy verify` selects then. -/
theorem distrustVerify_eq (env : Env) (x : Outside) (sch : Schedule) (hx : x.sch = some sch) (hb : x.busy = false) (s : Sys)
    (hn : Named s.src.repo.files) :
    ∃ (d : Sys) (l : List Rev), SameData s d ∧ d.src.w.log = s.src.w.log ∧ Named d.src.repo.files ∧
      (∀ u, onDisk d.src.repo.files u = (onDisk s.src.repo.files u).map (fun r => if r.server = "" then { r with trust := .distrusted } else r)) ∧
      (l.map Rev.uuid).Nodup ∧ (∀ r, r ∈ l ↔ onDisk d.src.repo.files r.uuid = some r ∧ r.server = "") ∧
      distrustVerify env x s = (((verifyLoop env x.rbd.order l 0 d.connect).1 : Int), (verifyLoop env x.rbd.order l 0 d.connect).2) := by
  obtain ⟨_, d2, d3⟩ := (C109_distrust env x sch hx false s hn).1 hb
  have he := distrust_eq env x sch hx hb s
  have hnd : Named (mainArgs env x false .distrust none s).2.src.repo.files := by
    rw [he]
    exact distrust_named _ _ hn
  have hlog : (mainArgs env x false .distrust none s).2.src.w.log = s.src.w.log := by rw [he]; rfl
  generalize hg : (mainArgs env x false .distrust none s).2 = d at *
  have hnodup := nodup_of_map_uuid (Repo.scan_nodup d.src.repo)
  have hf : findRevisions ⟨d.connect.src.repo.history, x.pd⟩ "trust:distrusted&local" =
      .ok (d.src.repo.scan.history.filter (fun r => decide (r.trust = .distrusted ∧ r.server = ""))) := find_suspect _ hnodup
  refine ⟨d, d.src.repo.scan.history.filter (fun r => decide (r.trust = .distrusted ∧ r.server = "")), d2, hlog, hnd, d3,
    (Repo.scan_nodup d.src.repo).sublist (List.filter_sublist.map _), fun r => ?_, ?_⟩
  · rw [List.mem_filter, decide_eq_true_eq, Repo.scan_mem hnd]
    refine ⟨fun h => ⟨h.1, h.2.2⟩, fun h => ⟨h.1, ?_, h.2⟩⟩
    have h1 := h.1
    rw [d3, Option.map_eq_some_iff] at h1
    obtain ⟨q, _, hq⟩ := h1
    by_cases hs : q.server = ""
    · rw [if_pos hs] at hq; rw [← hq]
    · rw [if_neg hs] at hq; subst hq; exact absurd h.2 hs
  · unfold distrustVerify
    rw [hg]
    show main env x false (.verify "trust:distrusted&local") d = _
    simp only [main, hx, Cmd.run, verifyCmd, hf]
    rfl

theorem connect_onDisk {s : Sys} {u : String} : onDisk s.connect.src.repo.files u = onDisk s.src.repo.files u := rfl

/-- Right after `backy distrust` no revision of this server counts as verified. -/
theorem checked_distrusted {env : Env} {s d : Sys}
    (hd : ∀ u, onDisk d.src.repo.files u = (onDisk s.src.repo.files u).map (fun r => if r.server = "" then { r with trust := .distrusted } else r)) :
    Checked env d := by
  intro u r hr hl ht
  rw [hd, Option.map_eq_some_iff] at hr
  obtain ⟨q, _, rfl⟩ := hr
  split at ht
  · cases ht
  · rename_i h; rw [if_neg h] at hl; exact absurd hl h

/-- The state after `backy distrust` and `backy verify`, if `verify` exits with 0. -/
structure Healed (env : Env) (s t : Sys) : Prop where
  named : Named t.src.repo.files
  ceph : t.ceph = s.ceph
  log : t.src.w.log = s.src.w.log
  metas : t.src.w.metas = s.src.w.metas
  seen : t.src.w.seen = []
  /-- every revision of this server is verified or gone -/
  both : ∀ u r, onDisk s.src.repo.files u = some r → r.server = "" →
    onDisk t.src.repo.files u = none ∨ onDisk t.src.repo.files u = some { r with trust := .verified }
  /-- the revisions that are left are verified and intact -/
  left : ∀ u r, onDisk t.src.repo.files u = some r → r.server = "" → r.trust = .verified ∧ Intact env t.src.w u ∧
    ∃ q, onDisk s.src.repo.files u = some q ∧ r = { q with trust := .verified }
  /-- the intact revisions are left -/
  intact : ∀ u r, onDisk s.src.repo.files u = some r → r.server = "" → Intact env s.src.w u →
    Intact env t.src.w u ∧ onDisk t.src.repo.files u = some { r with trust := .verified }
  /-- chunk files only disappear -/
  chunks : ∀ h x, t.src.w.chunks.get? h = some x → s.src.w.chunks.get? h = some x
  /-- chunk files that no revision of this server needs are gone -/
  used : (∃ u r, onDisk s.src.repo.files u = some r ∧ r.server = "") →
    ∀ h x, t.src.w.chunks.get? h = some x → Referenced t.connect.src h

theorem distrustVerify_healed (env : Env) (x : Outside) (sch : Schedule) (hx : x.sch = some sch) (hb : x.busy = false)
    (ho : ∀ l, (x.rbd.order l).Perm l) (s : Sys) (hn : Named s.src.repo.files) (h0 : (distrustVerify env x s).1 = 0) :
    Healed env s (distrustVerify env x s).2 := by
  obtain ⟨d, l, d1, d2, d3, d4, d5, d6, d7⟩ := distrustVerify_eq env x sch hx hb s hn
  rw [d7] at h0 ⊢
  dsimp only at h0
  have h0 : (verifyLoop env x.rbd.order l 0 d.connect).1 = 0 := by exact_mod_cast h0
  dsimp only
  have hlist : ∀ r ∈ l, onDisk d.connect.src.repo.files r.uuid = some r ∧ r.server = "" := fun r hr => (d6 r).1 hr
  have hchk : Checked env d.connect := by
    intro u r hr hl ht
    have hi := checked_distrusted (env := env) d4 u r hr hl ht
    exact ⟨hi.image, hi.chunks⟩
  obtain ⟨v1, v2⟩ := verifyLoop_verifies env x.rbd.order ho l 0 d.connect d3 hchk d5 hlist h0
  obtain ⟨f1, f2⟩ := verifyLoop_spec env x.rbd.order ho l 0 d.connect d3 d5 hlist
  generalize hg : (verifyLoop env x.rbd.order l 0 d.connect).2 = t at *
  have f2 := f2 h0
  have hm : t.src.w.metas = s.src.w.metas := v1.shrunk.metas.trans d1.2.1.symm
  -- a revision of this server that is left was verified
  have hleft : ∀ u r, onDisk t.src.repo.files u = some r → r.server = "" →
      ∃ q, onDisk s.src.repo.files u = some q ∧ r = { q with trust := .verified } := by
    intro u r hr hl
    by_cases hu : ∃ q ∈ l, q.uuid = u
    · obtain ⟨q, hq, rfl⟩ := hu
      have hq1 := (hlist q hq).1
      rw [connect_onDisk, d4, Option.map_eq_some_iff] at hq1
      obtain ⟨q0, q1, q2⟩ := hq1
      have hq0 : q0.server = "" := by
        by_cases h : q0.server = ""
        · exact h
        · rw [if_neg h] at q2; rw [q2]; exact (hlist q hq).2
      rw [if_pos hq0] at q2
      rcases f2 q hq with h | h
      · rw [h] at hr; cases hr
      · rw [h] at hr; cases hr
        exact ⟨q0, q1, by rw [← q2]⟩
    · rw [f1 u (fun q hq he => hu ⟨q, hq, he⟩)] at hr
      have hru := onDisk_uuid d3 hr
      exact absurd ⟨r, (d6 r).2 ⟨by rw [hru]; exact hr, hl⟩, hru⟩ hu
  refine ⟨v1.named, v1.ceph.trans d1.2.2.symm, v1.shrunk.log.trans d2, hm, v1.seen rfl, ?_, ?_, ?_, ?_, ?_⟩
  · intro u r hr hl
    have hd : onDisk d.src.repo.files u = some { r with trust := .distrusted } := by rw [d4, hr, Option.map_some, if_pos hl]
    have hu : r.uuid = u := onDisk_uuid hn hr
    subst hu
    exact f2 { r with trust := .distrusted } ((d6 _).2 ⟨hd, hl⟩)
  · intro u r hr hl
    obtain ⟨q, q1, q2⟩ := hleft u r hr hl
    have ht : r.trust = .verified := by rw [q2]
    exact ⟨ht, v1.checked u r hr hl ht, q, q1, q2⟩
  · intro u r hr hl hi
    have hd : onDisk d.connect.src.repo.files u = some { r with trust := .distrusted } := by
      rw [connect_onDisk, d4, hr, Option.map_some, if_pos hl]
    have hid : Intact env d.connect.src.w u := by
      obtain ⟨m, hm'⟩ := hi.image
      refine ⟨⟨m, ?_⟩, fun h hh => ?_⟩
      · show d.src.w.metas.get? u = _
        rw [← d1.2.1]; exact hm'
      · obtain ⟨c, c1, c2⟩ := hi.chunks h (Refers.of_metas (w := s.src.w) (w' := d.connect.src.w) d1.2.1.symm hh)
        refine ⟨c, ?_, c2⟩
        show d.src.w.chunks.get? h = _
        rw [← d1.1]; exact c1
    obtain ⟨i1, r', i2, i3⟩ := v1.intact u _ hd hl hid
    obtain ⟨q, q1, q2⟩ := hleft u r' i2 i3
    rw [hr] at q1
    cases q1
    exact ⟨i1, by rw [i2, q2]⟩
  · intro h c hc
    rw [d1.1]
    exact v1.shrunk.chunks h c hc
  · rintro ⟨u, r, hr, hl⟩
    refine v2 (.inl ?_)
    rintro rfl
    have hd : onDisk d.src.repo.files u = some { r with trust := .distrusted } := by rw [d4, hr, Option.map_some, if_pos hl]
    have hu : r.uuid = u := onDisk_uuid hn hr
    subst hu
    have := (d6 { r with trust := .distrusted }).2 ⟨hd, hl⟩
    cases this

/-- **C136** `backy distrust` and `backy verify` separate the intact backups from the damaged ones: if `verify` exits with 0, a revision of this server is
left exactly if its mapping file and its chunks were undamaged, and then it is marked as verified. -/
theorem C136_intact_left (env : Env) (x : Outside) (sch : Schedule) (hx : x.sch = some sch) (hb : x.busy = false)
    (ho : ∀ l, (x.rbd.order l).Perm l) (s : Sys) (hn : Named s.src.repo.files) (h0 : (distrustVerify env x s).1 = 0)
    (u : String) (r : Rev) (hr : onDisk s.src.repo.files u = some r) (hl : r.server = "") :
    (Intact env s.src.w u → onDisk (distrustVerify env x s).2.src.repo.files u = some { r with trust := .verified }) ∧
    (¬ Intact env s.src.w u → onDisk (distrustVerify env x s).2.src.repo.files u = none) := by
  have hh := distrustVerify_healed env x sch hx hb ho s hn h0
  refine ⟨fun hi => (hh.intact u r hr hl hi).2, fun hi => ?_⟩
  rcases hh.both u r hr hl with h | h
  · exact h
  · obtain ⟨_, h2, _⟩ := hh.left u _ h hl
    refine absurd ⟨?_, fun c hc => ?_⟩ hi
    · rw [← hh.metas]; exact h2.image
    · obtain ⟨d, d1, d2⟩ := h2.chunks c (Refers.of_metas (w := (distrustVerify env x s).2.src.w) (w' := s.src.w) hh.metas.symm hc)
      exact ⟨d, hh.chunks c _ d1, d2⟩

/-- **C136** The exit code of `backy verify` after `backy distrust` is 0 if the mapping files of all revisions of this server can be read,
whatever happened to the chunks. -/
theorem C136_exit_code (env : Env) (x : Outside) (sch : Schedule) (hx : x.sch = some sch) (hb : x.busy = false) (s : Sys)
    (hn : Named s.src.repo.files)
    (hm : ∀ u r, onDisk s.src.repo.files u = some r → r.server = "" → ∃ m, s.src.w.metas.get? u = some (some m)) :
    (distrustVerify env x s).1 = 0 := by
  obtain ⟨d, l, d1, d2, d3, d4, d5, d6, d7⟩ := distrustVerify_eq env x sch hx hb s hn
  rw [d7]
  dsimp only
  have hlist : ∀ r ∈ l, onDisk d.connect.src.repo.files r.uuid = some r ∧ r.server = "" := fun r hr => (d6 r).1 hr
  rw [verifyLoop_total env x.rbd.order l 0 d.connect d3 ?_ d5 hlist]
  · rfl
  · intro u r hr hl
    rw [connect_onDisk, d4, Option.map_eq_some_iff] at hr
    obtain ⟨q, q1, q2⟩ := hr
    have hq : q.server = "" := by
      by_cases h : q.server = ""
      · exact h
      · rw [if_neg h] at q2; rw [q2]; exact hl
    show ∃ m, d.src.w.metas.get? u = _
    rw [← d1.2.1]
    exact hm u q q1 hq

/-- The state afterwards is one of an undamaged repository. -/
theorem Healed.good {env : Env} {s0 s t : Sys} (h0 : Initial s0) (hlog : s0.src.w.log = []) (hs : Damaged env s0 s)
    (hcoll : CollFree env.H s.src.w.log) (h : Healed env s t) (hsome : ∃ u r, onDisk s.src.repo.files u = some r ∧ r.server = "") :
    Good env t := by
  have hsound := (Sound.initial (env := env) (L := s.src.w.log) h0 hlog).damaged hcoll hs (fun _ h => h)
  refine ⟨⟨⟨?_, ?_⟩, h.named, ?_⟩, by rw [h.ceph]; exact hsound.snaps⟩
  · intro c y hy
    obtain ⟨q, q1, m, m1, m2⟩ := h.used hsome c y hy
    obtain ⟨q2, q3⟩ := mem_localHistory.1 q1
    obtain ⟨_, hi, _⟩ := h.left q.uuid q ((Repo.scan_mem h.named q).1 q2) q3
    obtain ⟨d, d1, d2⟩ := hi.chunks c ⟨m, m1, m2⟩
    rw [hy] at d1
    cases d1
    obtain ⟨l1, l2⟩ := hsound.okw.chunks c d (h.chunks c _ hy) d2
    exact ⟨d, rfl, d2, by rw [h.log]; exact l1, l2⟩
  · intro c hc
    rw [h.seen] at hc
    cases hc
  · intro u r hr hl hc
    obtain ⟨_, hi, q, q1, q2⟩ := h.left u r hr hl
    have hql : q.server = "" := by rw [q2] at hl; exact hl
    have hqc : q.clean = true := by rw [q2] at hc; exact hc
    have hru : r.uuid = q.uuid := by rw [q2]
    obtain ⟨c, c1, c2⟩ := hsound.good u q q1 hql hqc
    have hqu := onDisk_uuid hsound.named q1
    rw [hqu] at c1 c2 hru
    refine ⟨c, by rw [h.ceph, hru]; exact c1, ?_⟩
    rw [hru]
    obtain ⟨m, hm⟩ := hi.image
    have hms : s.src.w.metas.get? u = some (some m) := by rw [← h.metas]; exact hm
    obtain ⟨m', m1, m2, m3, m4⟩ := c2 m hms
    have e : s.src.w.metas.get? u = some (some m') := m1
    rw [hms] at e
    cases e
    have hch : ∀ k ∈ m.mapping.values, ∃ d, t.src.w.chunks.get? k = some (some d) ∧ (ideal env s.src.w.log s.src.w).chunks.get? k = some (some d) := by
      intro k hk
      obtain ⟨d, d1, d2⟩ := hi.chunks k ⟨m, hm, hk⟩
      obtain ⟨l1, l2⟩ := hsound.okw.chunks k d (h.chunks k _ d1) d2
      have ht := table_get hcoll l1 l2
      rw [d2] at ht
      exact ⟨d, d1, ht⟩
    refine ⟨m, hm, m2, fun k hk => ?_, fun p hp => ?_⟩
    · obtain ⟨d, d1, _⟩ := hch k hk
      exact ⟨d, d1⟩
    · obtain ⟨k, d, k1, k2, k3⟩ := m4 p hp
      obtain ⟨d', e1, e2⟩ := hch k (mem_values_of_get? k1)
      rw [e2] at k2
      cases k2
      exact ⟨k, d, k1, e1, k3⟩

/-- **C136** A damaged repository is healed by `backy distrust` and `backy verify`: if there is a revision of this server and `verify` exits with 0,
every complete revision of this server that is there then, or is made later in any history without new damage, restores to exactly the
image its snapshot held. -/
theorem C136_heals (env : Env) (s0 s s' : Sys) (h0 : Initial s0) (hlog : s0.src.w.log = []) (hs : Damaged env s0 s)
    (x : Outside) (sch : Schedule) (hx : x.sch = some sch) (hb : x.busy = false) (ho : ∀ l, (x.rbd.order l).Perm l)
    (hsome : ∃ u r, onDisk s.src.repo.files u = some r ∧ r.server = "") (hok : (distrustVerify env x s).1 = 0)
    (hs' : Steps env (distrustVerify env x s).2 s') (hcoll : CollFree env.H s'.src.w.log)
    (r : Rev) (hr : onDisk s'.src.repo.files r.uuid = some r) (hl : r.server = "") (hc : r.clean = true) :
    ∃ c, s'.ceph.taken.get? r.uuid = some c ∧ (∀ target, restore env s'.connect.src.w r target = (.ok (), some c)) ∧
      restoreOut env s'.connect.src.w r = (.ok (), c) := by
  have hsub : s.src.w.log ⊆ s'.src.w.log := by rw [← distrustVerify_log env x sch hx hb s]; exact hs'.log
  have hcs : CollFree env.H s.src.w.log := fun a ha b hb => hcoll a (hsub ha) b (hsub hb)
  have hn := ((Sound.initial (env := env) (L := s.src.w.log) h0 hlog).damaged hcs hs (fun _ h => h)).named
  have hh := distrustVerify_healed env x sch hx hb ho s hn hok
  have hg := (hh.good h0 hlog hs hcs hsome).steps hcoll hs' (fun _ h => h)
  have hm := hg.disk.connect
  obtain ⟨c, h1, h2⟩ := hm.disk.good r.uuid r hr hl hc
  exact ⟨c, h1, C20_restore_file env _ r c hm.disk.wok h2 hcoll, C20_restore_stdout env _ r c hm.disk.wok h2 hcoll⟩

/-- **C136** The next backups succeed: after any history without new damage, a backup that can be carried out (`Works`) ends with exit code 0 and a
complete revision that restores to the image. -/
theorem C136_next_backup (env : Env) (s0 s s' : Sys) (h0 : Initial s0) (hlog : s0.src.w.log = []) (hs : Damaged env s0 s)
    (x : Outside) (sch : Schedule) (hx : x.sch = some sch) (hb : x.busy = false) (ho : ∀ l, (x.rbd.order l).Perm l)
    (hsome : ∃ u r, onDisk s.src.repo.files u = some r ∧ r.server = "") (hok : (distrustVerify env x s).1 = 0)
    (hs' : Steps env (distrustVerify env x s).2 s') (af : Bool) (o : Rbd) (uuid : String) (ts : Int) (tags : Finset String) (hu : Fresh s' uuid)
    (hf : Works o s'.ceph.snaps uuid s'.ceph.image env.cs)
    (hcoll : CollFree env.H (runBackup env af o uuid ts tags s'.connect).2.src.w.log) :
    (runBackup env af o uuid ts tags s'.connect).1 = 0 ∧
    ∃ r, onDisk (runBackup env af o uuid ts tags s'.connect).2.src.repo.files uuid = some r ∧ r.clean = true ∧
      ∀ target, restore env (runBackup env af o uuid ts tags s'.connect).2.connect.src.w r target = (.ok (), some s'.ceph.image) := by
  have hsub1 : s.src.w.log ⊆ s'.src.w.log := by rw [← distrustVerify_log env x sch hx hb s]; exact hs'.log
  have hsub2 : s'.src.w.log ⊆ (runBackup env af o uuid ts tags s'.connect).2.src.w.log := runBackup_log env af o uuid ts tags s'.connect
  have hcs : CollFree env.H s.src.w.log := fun a ha b hb => hcoll a (hsub2 (hsub1 ha)) b (hsub2 (hsub1 hb))
  have hn := ((Sound.initial (env := env) (L := s.src.w.log) h0 hlog).damaged hcs hs (fun _ h => h)).named
  have hh := distrustVerify_healed env x sch hx hb ho s hn hok
  have hg := (hh.good h0 hlog hs hcs hsome).steps hcoll hs' hsub2
  exact hg.backup_succeeds af o uuid ts tags hu hf hcoll

/-! ### A case that meets the hypotheses: the chunk only "a" uses has another content -/

theorem exBitrot_named : Named exBitrot.src.repo.files :=
  ((Sound.initial (env := Test.env) (L := exBitrot.src.w.log) exNew_initial rfl).damaged (Test.collFree _) exBitrot_damaged (fun _ h => h)).named

theorem some_of_join {o : Option (Option Meta)} (h : o.join.isSome = true) : ∃ m, o = some (some m) := by
  match o, h with
  | some (some m), _ => exact ⟨m, rfl⟩

theorem exBitrot_code : (distrustVerify Test.env exOutside exBitrot).1 = 0 := by
  refine C136_exit_code Test.env exOutside exSchedule rfl rfl exBitrot exBitrot_named fun u r hr _ => ?_
  have hm := (Repo.scan_mem exBitrot_named r).2 (by rw [onDisk_uuid exBitrot_named hr]; exact hr)
  have hu := onDisk_uuid exBitrot_named hr
  have h : ∀ q ∈ exBitrot.src.repo.scan.history, q.uuid = "a" ∨ q.uuid = "b" := by decide +kernel
  rcases h r hm with h | h <;> rw [← hu, h]
  · exact some_of_join (by decide +kernel)
  · exact some_of_join (by decide +kernel)

/-- "b" is intact and left, "a" is damaged and gone. -/
example : onDisk (distrustVerify Test.env exOutside exBitrot).2.src.repo.files "b" =
      some { finished (idealRbd [] []) (newRev "b" 20 {"daily"}) with trust := .verified } ∧
    onDisk (distrustVerify Test.env exOutside exBitrot).2.src.repo.files "a" = none := by
  have hb := C136_intact_left Test.env exOutside exSchedule rfl rfl (fun l => List.Perm.refl _) exBitrot exBitrot_named exBitrot_code "b" _ exBitrot_b.1 rfl
  have ha := C136_intact_left Test.env exOutside exSchedule rfl rfl (fun l => List.Perm.refl _) exBitrot exBitrot_named exBitrot_code "a"
    (finished (idealRbd [] []) (newRev "a" 10 {"daily"})) (by decide +kernel) rfl
  refine ⟨hb.1 ⟨⟨_, exBitrot_b.2.1⟩, ?_⟩, ha.2 fun hi => ?_⟩
  · rintro h ⟨m, m1, m2⟩
    rw [exBitrot_b.2.1] at m1
    cases m1
    exact exBitrot_b.2.2.1 h m2
  · have hm : ∃ m, exBitrot.src.w.metas.get? "a" = some (some m) ∧ Test.hash [1, 1, 1, 1] ∈ m.mapping.values := by
      have hj : (exBitrot.src.w.metas.get? "a").join.any (fun m => decide (Test.hash [1, 1, 1, 1] ∈ m.mapping.values)) = true := by decide +kernel
      revert hj
      rcases exBitrot.src.w.metas.get? "a" with _ | _ | m
      · intro h; cases h
      · intro h; cases h
      · intro h
        have h : decide (Test.hash [1, 1, 1, 1] ∈ m.mapping.values) = true := h
        exact ⟨m, rfl, of_decide_eq_true h⟩
    obtain ⟨d, d1, d2⟩ := hi.chunks _ hm
    have hc : exBitrot.src.w.chunks.get? (Test.hash [1, 1, 1, 1]) = some (some [1, 1, 5, 1]) := by decide +kernel
    rw [hc] at d1
    cases d1
    have := Test.hash_inj _ _ d2
    cases this

theorem exBitrot_some : ∃ u r, onDisk exBitrot.src.repo.files u = some r ∧ r.server = "" := ⟨_, _, exBitrot_b.1, rfl⟩

/-- C136_heals, C136_next_backup: right after the verification. -/
example := C136_heals Test.env exNew exBitrot (distrustVerify Test.env exOutside exBitrot).2 exNew_initial rfl exBitrot_damaged exOutside exSchedule rfl rfl
  (fun l => List.Perm.refl _) exBitrot_some exBitrot_code (.nil _) (Test.collFree _)
example (hu : Fresh (distrustVerify Test.env exOutside exBitrot).2 "c") (o : Rbd)
    (ho : Works o (distrustVerify Test.env exOutside exBitrot).2.ceph.snaps "c" (distrustVerify Test.env exOutside exBitrot).2.ceph.image 4) :=
  C136_next_backup Test.env exNew exBitrot _ exNew_initial rfl exBitrot_damaged exOutside exSchedule rfl rfl
    (fun l => List.Perm.refl _) exBitrot_some exBitrot_code (.nil _) false o "c" 30 {"daily"} hu ho (Test.collFree _)

end Verif.Commands
