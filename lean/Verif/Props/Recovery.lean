import Verif.Spec.Recovery
import Verif.Props.Restorable
import Verif.Props.Lasting
import Verif.Props.TimelinePeers
/-!
# Property C131: how old the data is that can be restored
-/
set_option linter.dupNamespace false
namespace Verif.Recovery
open Verif Verif.Chunked Verif.Spec Verif.Rbd Verif.Repo Verif.Backup Verif.Diff Verif.Timeline Verif.Files

theorem Timed.steps {env : Env} {img : Int → Bytes} {lag : Int} {s0 s : Sys} {t : Int} (h : Timed env img lag s0 s t) : Steps env s0 s := by
  induction h with
  | start t => exact .nil _
  | later s t t' h ht ih => exact ih
  | other s s' t h hs hq ih => exact .cons ih hs
  | backup s t τ done af o uuid ts tags h hu hf ht hi ih => exact .cons ih (.backup _ af o uuid ts tags hu hf)
  | killed s s' t τ done af o uuid ts tags h hu hf ht hi hk ih => exact .cons ih (.killed _ _ af o uuid ts tags hu hf hk)

/-- What a killed backup leaves, for properties of revisions. -/
theorem killed_all {P : Rev → Prop} (hP : Core P) {env : Env} {af : Bool} {o : Rbd} {uuid : String} {ts : Int}
    {tags : Finset String} (hr : P (newRev uuid ts tags)) (hf : P (finished o (newRev uuid ts tags))) {s s' : Sys}
    (h : All P s.connect.src.repo) (hk : Killed env af o uuid ts tags s s') : All P s'.src.repo := by
  have hl : All P (s.prepared uuid ts tags).src.repo := ((h.clean hP).writeInfo hr).scan
  cases hk with
  | cleaning k =>
    show All P (cleanUpTo k s.connect.src.repo)
    unfold cleanUpTo
    refine All.foldl _ (fun s r hs hr => ?_) _ h (fun r hr => h.hist r (List.mem_of_mem_filter (List.mem_of_mem_take hr)))
    split
    · exact hs
    · exact hs.remove hP hr false
  | created => exact hl
  | writing parent v hp hv => exact hl
  | leaving o' k => exact hl.distrust hP _ (fun x hx => hl.hist x (List.mem_of_mem_filter (List.mem_of_mem_take hx)))
  | completed o' hv => exact hl.store hf

/-- What an event leaves, for properties of revisions that hold for all revisions of other servers and all new ones. -/
theorem step_all {P : Rev → Prop} (hP : Core P) {env : Env} {s s' : Sys} (hn : Named s.src.repo.files)
    (h : ∀ u r, onDisk s.src.repo.files u = some r → P r) (hrem : ∀ r, r.server ≠ "" → P r)
    (hnew : ∀ uuid ts tags o, Fresh s uuid → P (newRev uuid ts tags) ∧ P (finished o (newRev uuid ts tags)))
    (hs : Step env s s') : ∀ u r, onDisk s'.src.repo.files u = some r → P r := by
  have hall : All P s.connect.src.repo := ⟨fun r hr => h _ r ((Repo.scan_mem hn r).1 hr), h, hn⟩
  have hall' : All P s.src.repo.scan := hall
  cases hs with
  | guest img => exact h
  | backup af o uuid ts tags hu hf =>
    exact (runBackup_all hP env af o uuid ts tags (hnew uuid ts tags o hu).1 (hnew uuid ts tags o hu).2 s.connect hall).disk
  | killed s2 af o uuid ts tags hu hf hk => exact (killed_all hP (hnew uuid ts tags o hu).1 (hnew uuid ts tags o hu).2 hall hk).disk
  | rm revs hr => exact (hall.rm hP revs (fun r hx => hall.hist r (hr r hx))).disk
  | expire sch pd now => exact (hall.expire hP sch pd now).disk
  | distrust revs hr => exact (hall.distrust hP revs (fun r hx => hall.hist r (hr r hx))).disk
  | tags sch pd action spec tags expect auto force => exact (hall.tagsOp hP sch pd action spec tags expect auto force).disk
  | verify order r hr =>
    have := all_verifyMark hP env order (s := s.connect.src) hall (hall.hist r hr)
    rw [← verify_repo] at this
    exact this.disk
  | verifyKilled order r hr => exact (all_verifyMark hP env order (s := s.connect.src) hall (hall.hist r hr)).disk
  | gc =>
    have : s.connect.src.gc.2.repo = s.connect.src.repo := by
      unfold Src.gc; split <;> rfl
    show ∀ u r, onDisk s.connect.src.gc.2.repo.files u = some r → P r
    rw [this]; exact h
  | gcKilled left =>
    show ∀ u r, onDisk (gcSome left s.connect.src).repo.files u = some r → P r
    rw [gcSome_repo]; exact h
  | remote r hr => exact (hall'.writeInfo (hrem r hr)).disk
  | drop r => exact (hall'.drop r).disk
  | snapsGone keep => exact h
  | snapForeign name content hn => exact h

/-- What was there before. -/
def Was (s : Sys) (r : Rev) : Prop :=
  ∃ r0, onDisk s.src.repo.files r.uuid = some r0 ∧ r0.server = r.server ∧ r0.stats = r.stats ∧ r0.ts = r.ts

theorem Was.refl {s : Sys} (hn : Named s.src.repo.files) {u : String} {r : Rev} (hr : onDisk s.src.repo.files u = some r) : Was s r :=
  ⟨r, by rw [onDisk_uuid hn hr]; exact hr, rfl, rfl, rfl⟩

theorem origin_core (s : Sys) (Q : String → Int → Prop) : Core (fun r => r.server ≠ "" ∨ Q r.uuid r.ts ∨ Was s r) := by
  intro r r' h h1 h2 h3 h4
  unfold Was
  rw [h1, h2, h3, h4]; exact h

/-- A local revision on disk after an event was there before, or it is new. -/
theorem step_origin {env : Env} {s s' : Sys} (hn : Named s.src.repo.files) (hs : Step env s s') (u : String) (r : Rev)
    (hr : onDisk s'.src.repo.files u = some r) (hl : r.server = "") : Fresh s r.uuid ∨ Was s r := by
  rcases step_all (origin_core s (fun u _ => Fresh s u)) hn (fun u r hr => .inr (.inr (Was.refl hn hr))) (fun r hr => .inl hr)
    (fun uuid ts tags o hu => ⟨.inr (.inl hu), .inr (.inl hu)⟩) hs u r hr with h | h | h
  · exact absurd hl h
  · exact .inl h
  · exact .inr h

theorem connect_all {P : Rev → Prop} {s : Sys} (hn : Named s.src.repo.files) (h : ∀ u r, onDisk s.src.repo.files u = some r → P r) :
    All P s.connect.src.repo := ⟨fun r hr => h _ r ((Repo.scan_mem hn r).1 hr), h, hn⟩

theorem not_fresh {s : Sys} {u : String} {r : Rev} (h : onDisk s.src.repo.files u = some r) : ¬ Fresh s u := by
  intro hf
  have := hf.file
  rw [onDisk_eq_some] at h
  simp [Dict.has, h] at this

/-- The new revision is incomplete, or its snapshot has the content of the image. -/
theorem runBackup_taken {env : Env} {s : Sys} (hn : Named s.src.repo.files) (af : Bool) (o : Rbd) (uuid : String) (ts : Int)
    (tags : Finset String) (hu : Fresh s uuid) (r : Rev)
    (hr : onDisk (runBackup env af o uuid ts tags s.connect).2.src.repo.files uuid = some r) (hc : r.clean = true) :
    (runBackup env af o uuid ts tags s.connect).2.ceph.taken.get? uuid = some s.ceph.image := by
  have hl : All (fun r => r.uuid = uuid → r.clean = false) (s.connect.launch uuid ts tags).src.repo := by
    have hP : Core (fun r => r.uuid = uuid → r.clean = false) := by
      intro r r' h h1 h2 h3 h4 h5
      show r'.stats.has "duration" = false
      rw [h3]; exact h (h1.symm.trans h5)
    refine (((connect_all hn ?_).clean hP).writeInfo (fun _ => rfl)).scan
    intro u r hr hur
    refine absurd hu (not_fresh (r := r) ?_)
    rw [← hur, onDisk_uuid hn hr]; exact hr
  have hru : r.uuid = uuid := by
    have hall := runBackup_all (P := fun _ => True) (fun _ _ _ _ _ _ _ => trivial) env af o uuid ts tags trivial trivial s.connect
      (connect_all hn (fun _ _ _ => trivial))
    exact onDisk_uuid hall.named hr
  rw [(runBackup_launch env af o uuid ts tags s.connect hn).1] at hr ⊢
  unfold backup at hr ⊢
  split at hr
  · have := hl.disk _ _ hr hru
    rw [hc] at this; cases this
  · rename_i h1
    rw [if_neg h1]
    split at hr
    · have := hl.disk _ _ hr hru
      rw [hc] at this; cases this
    · rename_i h2
      rw [if_neg h2]
      show (s.ceph.taken.set uuid s.ceph.image).get? uuid = _
      simp

theorem killed_taken {env : Env} {s s' : Sys} (hn : Named s.src.repo.files) {af : Bool} {o : Rbd} {uuid : String} {ts : Int}
    {tags : Finset String} (hu : Fresh s uuid) (hk : Killed env af o uuid ts tags s s') (r : Rev)
    (hr : onDisk s'.src.repo.files uuid = some r) (hc : r.clean = true) : s'.ceph.taken.get? uuid = some s.ceph.image := by
  have hP : Core (fun r => r.uuid = uuid → r.clean = false) := by
    intro r r' h h1 h2 h3 h4 h5
    show r'.stats.has "duration" = false
    rw [h3]; exact h (h1.symm.trans h5)
  have hall : All (fun r => r.uuid = uuid → r.clean = false) s.connect.src.repo := by
    refine connect_all hn ?_
    intro u r hr hur
    refine absurd hu (not_fresh (r := r) ?_)
    rw [← hur, onDisk_uuid hn hr]; exact hr
  have hset : (s.ceph.taken.set uuid s.ceph.image).get? uuid = some s.ceph.image := by simp
  cases hk with
  | cleaning k =>
    have h2 : All (fun r => r.uuid = uuid → r.clean = false) (cleanUpTo k s.connect.src.repo) := by
      unfold cleanUpTo
      refine All.foldl _ (fun s r hs hr => ?_) _ hall (fun r hr => hall.hist r (List.mem_of_mem_filter (List.mem_of_mem_take hr)))
      split
      · exact hs
      · exact hs.remove hP hr false
    have := h2.disk _ _ hr (onDisk_uuid h2.named hr)
    rw [hc] at this; cases this
  | created =>
    have hl : All (fun r => r.uuid = uuid → r.clean = false) (s.prepared uuid ts tags).src.repo := ((hall.clean hP).writeInfo (fun _ => rfl)).scan
    have := hl.disk _ _ hr (onDisk_uuid hl.named hr)
    rw [hc] at this; cases this
  | writing parent v hp hv => exact hset
  | leaving o' k => exact hset
  | completed o' hv => exact hset

/-- The data of every complete revision of this server is the content of the image at some time after the timestamp of the revision. -/
def Dated (img : Int → Bytes) (lag : Int) (s : Sys) (t : Int) : Prop :=
  ∀ u r, onDisk s.src.repo.files u = some r → r.server = "" → r.clean = true →
    ∃ τ, r.ts ≤ τ ∧ τ ≤ r.ts + lag ∧ τ ≤ t ∧ s.ceph.taken.get? u = some (img τ)

theorem timed_dated {env : Env} {img : Int → Bytes} {lag : Int} {s0 s : Sys} {t : Int} (h0 : Initial s0) (h : Timed env img lag s0 s t)
    (hcoll : CollFree env.H s.src.w.log) : Dated img lag s t := by
  induction h with
  | start t =>
    intro u r hr
    rw [h0.files] at hr
    cases hr
  | later s t t' h ht ih =>
    intro u r hr hl hc
    obtain ⟨τ, a, a', b, c⟩ := ih hcoll u r hr hl hc
    exact ⟨τ, a, a', b.trans ht, c⟩
  | other s s' t h hs hq ih =>
    have hcoll0 : CollFree env.H s.src.w.log := fun a ha b hb => hcoll a (hs.log ha) b (hs.log hb)
    have hg := (Good.initial (env := env) h0).steps hcoll0 h.steps (fun _ h => h)
    have hn := hg.disk.named
    have hn' := (hg.step hcoll hs (fun _ h => h)).disk.named
    intro u r hr hl hc
    have hu := onDisk_uuid hn' hr
    obtain ⟨x, hx⟩ := hq u r hr hl
    rcases step_origin hn hs u r hr hl with hf | ⟨r0, h1, h2, h3, h4⟩
    · rw [hu] at hf
      exact absurd hf (not_fresh hx)
    · rw [hu] at h1
      obtain ⟨τ, a, a', b, c⟩ := ih hcoll0 u r0 h1 (h2.trans hl) (by
        show r0.stats.has "duration" = true
        rw [h3]; exact hc)
      exact ⟨τ, h4 ▸ a, h4 ▸ a', b, by rw [C13_record_stable env s s' hs u (not_fresh h1)]; exact c⟩
  | backup s t τ done af o uuid ts tags h hu hf ht hi ih =>
    have hs : Step env s (runBackup env af o uuid ts tags s.connect).2 := .backup _ af o uuid ts tags hu hf
    have hcoll0 : CollFree env.H s.src.w.log := fun a ha b hb => hcoll a (hs.log ha) b (hs.log hb)
    have hn := ((Good.initial (env := env) h0).steps hcoll0 h.steps (fun _ h => h)).disk.named
    have hall := runBackup_all (origin_core s (fun u x => u = uuid ∧ x = ts)) env af o uuid ts tags (.inr (.inl ⟨rfl, rfl⟩)) (.inr (.inl ⟨rfl, rfl⟩))
      s.connect (connect_all hn (fun u r hr => .inr (.inr (Was.refl hn hr))))
    intro u r hr hl hc
    have hru := onDisk_uuid hall.named hr
    rcases hall.disk u r hr with h1 | ⟨h1, h2⟩ | ⟨r0, h1, h2, h3, h4⟩
    · exact absurd hl h1
    · have : u = uuid := hru.symm.trans h1
      subst this
      exact ⟨τ, h2 ▸ ht.2.1, h2 ▸ ht.2.2.1, ht.2.2.2, by rw [runBackup_taken hn af o u ts tags hu r hr hc, hi]⟩
    · rw [hru] at h1
      obtain ⟨τ', a, a', b, c⟩ := ih hcoll0 u r0 h1 (h2.trans hl) (by
        show r0.stats.has "duration" = true
        rw [h3]; exact hc)
      exact ⟨τ', h4 ▸ a, h4 ▸ a', by omega, by rw [C13_record_stable env s _ hs u (not_fresh h1)]; exact c⟩
  | killed s s' t τ done af o uuid ts tags h hu hf ht hi hk ih =>
    have hs : Step env s s' := .killed _ _ af o uuid ts tags hu hf hk
    have hcoll0 : CollFree env.H s.src.w.log := fun a ha b hb => hcoll a (hs.log ha) b (hs.log hb)
    have hn := ((Good.initial (env := env) h0).steps hcoll0 h.steps (fun _ h => h)).disk.named
    have hall := killed_all (origin_core s (fun u x => u = uuid ∧ x = ts)) (.inr (.inl ⟨rfl, rfl⟩)) (.inr (.inl ⟨rfl, rfl⟩))
      (connect_all hn (fun u r hr => .inr (.inr (Was.refl hn hr)))) hk
    intro u r hr hl hc
    have hru := onDisk_uuid hall.named hr
    rcases hall.disk u r hr with h1 | ⟨h1, h2⟩ | ⟨r0, h1, h2, h3, h4⟩
    · exact absurd hl h1
    · have : u = uuid := hru.symm.trans h1
      subst this
      exact ⟨τ, h2 ▸ ht.2.1, h2 ▸ ht.2.2.1, ht.2.2.2, by rw [killed_taken hn hu hk r hr hc, hi]⟩
    · rw [hru] at h1
      obtain ⟨τ', a, a', b, c⟩ := ih hcoll0 u r0 h1 (h2.trans hl) (by
        show r0.stats.has "duration" = true
        rw [h3]; exact hc)
      exact ⟨τ', h4 ▸ a, h4 ▸ a', by omega, by rw [C13_record_stable env s _ hs u (not_fresh h1)]; exact c⟩

/-- **C131** What is restored of a complete revision of this server is the image as it was at one moment: not before the timestamp of the
revision, at most `lag` after it, and not in the future. -/
theorem C131_one_moment (env : Env) (img : Int → Bytes) (lag : Int) (s0 s : Sys) (now : Int) (h0 : Initial s0) (h : Timed env img lag s0 s now)
    (hcoll : CollFree env.H s.src.w.log) (x : Commands.Outside) (sch : Schedule) (hx : x.sch = some sch) (dry : Bool) (spec : String) (r : Rev)
    (hr : find ⟨s.src.repo.scan.history, x.pd⟩ spec = .ok r) (hl : r.server = "") (hc : r.clean = true) :
    ∃ τ, r.ts ≤ τ ∧ τ ≤ r.ts + lag ∧ τ ≤ now ∧ (Commands.main env x dry (.restore spec) s).1 = 0 ∧
      (Commands.restoreCmd env x spec s.connect).2 = some (img τ) := by
  obtain ⟨c, h1, h2, h3⟩ := Commands.restores_complete env s0 s h0 h.steps hcoll x sch hx dry spec r hr hl hc
  have hn := ((Good.initial (env := env) h0).steps hcoll h.steps (fun _ h => h)).disk.named
  have hm : r ∈ s.src.repo.scan.history := Commands.find_mem (c := ⟨s.src.repo.scan.history, x.pd⟩) (nodup_of_map_uuid (Repo.scan_nodup s.src.repo)) hr
  obtain ⟨τ, a, a', b, d⟩ := timed_dated h0 h hcoll r.uuid r ((Repo.scan_mem hn r).1 hm) hl hc
  rw [h1] at d
  cases d
  exact ⟨τ, a, a', b, h2, h3⟩

/-- If there is a complete revision of this server with the timestamp `ts`, `last(clean&local)` restores the image as it was at a time
not before `ts`. -/
theorem C131_not_older (env : Env) (img : Int → Bytes) (lag : Int) (s0 s : Sys) (now : Int) (h0 : Initial s0) (h : Timed env img lag s0 s now)
    (hcoll : CollFree env.H s.src.w.log) (x : Commands.Outside) (sch : Schedule) (hx : x.sch = some sch) (dry : Bool)
    (hid : ∀ u r, onDisk s.src.repo.files u = some r → u ≠ "last(clean&local)")
    (v : String) (q : Rev) (hq : onDisk s.src.repo.files v = some q) (hl : q.server = "") (hc : q.clean = true) :
    ∃ τ, q.ts ≤ τ ∧ τ ≤ now ∧ (Commands.main env x dry (.restore "last(clean&local)") s).1 = 0 ∧
      (Commands.restoreCmd env x "last(clean&local)" s.connect).2 = some (img τ) := by
  obtain ⟨u, r, c, r1, r2, r3, r4, r5, r6, r7⟩ := Commands.C108_newest_complete env s0 s h0 h.steps hcoll x sch hx dry hid ⟨v, q, hq, hl, hc⟩
  obtain ⟨τ, a, a', b, d⟩ := timed_dated h0 h hcoll u r r1 r2 r3
  rw [r5] at d
  cases d
  exact ⟨τ, (r4 v q hq hl hc).trans a, b, r6, r7⟩

/-- The revision of a pass is there until the backup of the next pass is done. -/
theorem made_visible (sch : Schedule) (m spread late long : Int) (hs : GoodSchedule sch) (hp : Proper sch m) (hfit : long ≤ m)
    (before' mid' pulled' after' : Dict String RevFile) (q : Made) (plan : Int)
    (hq : q.pass.MakesWith sch spread late long q.time q.tags before' mid' pulled' after')
    (soon : plan ≤ q.pass.start + long ∧ ∀ tag, q.pass.expiry tag ≤ plan)
    (view : Dict String RevFile) (hv : q.pass.VisibleWith sch mid' pulled' view) :
    ∃ r, onDisk view r.uuid = some r ∧ r.clean = true ∧ r.server = "" ∧ r.ts = q.pass.start := by
  have hpos : 0 < m := by
    obtain ⟨e, he, hee⟩ := List.mem_map.1 hp.min
    obtain ⟨i, hi, hei⟩ := hp.whole e he
    have : e.2.interval = m := hee
    unfold seconds at hei
    omega
  obtain ⟨tag, a, ha, htag⟩ := planned_tag hq.planned
  obtain ⟨x, x1, x2, x3, x4, x5⟩ := hq.backs.new
  have hxu : x.uuid = q.pass.uuid := onDisk_uuid hq.backs.named x1
  have hx : onDisk mid' x.uuid = some x := by rw [hxu]; exact x1
  have hage : q.pass.expiry tag - a.keep * a.interval ≤ x.ts := by
    have hk : (1 : Int) ≤ a.keep := by
      have : 0 < a.keep := hs.keep _ ha
      omega
    have h1 : m ≤ a.interval := hp.least _ ha
    have h2 := Int.mul_le_mul_of_nonneg_right hk (show 0 ≤ a.interval by omega)
    have h3 := soon.1
    have h4 := soon.2 tag
    omega
  obtain ⟨w, hw, hsame⟩ := hv
  have key : ∃ T, onDisk w x.uuid = some (x.withTags T) := by
    rcases hw with rfl | hw
    · exact ⟨x.tags, hx⟩
    · obtain ⟨T, h1, _⟩ := survives_young hs q.pass hq.pulls.named hw ha ((hq.pulls.same _ _ x5).1 hx) (by rw [x3]; exact htag) hage
      exact ⟨T, h1⟩
  obtain ⟨T, hT⟩ := key
  exact ⟨x.withTags T, (hsame.same _ _ (show (x.withTags T).server = "" from x5)).1 hT, x4, x5, x2⟩

/-- **C131** A job that makes its backups in time: from the end of one backup to the end of the next one, `backy restore -r
"last(clean&local)"` exits with 0 and writes the image as it was at one moment, which is at most the shortest interval of the schedule plus
the delays ago. -/
theorem C131_recovery_point (env : Env) (img : Int → Bytes) (lag : Int) (s0 s : Sys) (now : Int) (h0 : Initial s0) (h : Timed env img lag s0 s now)
    (hcoll : CollFree env.H s.src.w.log) (x : Commands.Outside) (sch : Schedule) (hx : x.sch = some sch) (dry : Bool)
    (hid : ∀ u r, onDisk s.src.repo.files u = some r → u ≠ "last(clean&local)")
    (m spread late long : Int) (hs : GoodSchedule sch) (hp : Proper sch m) (hfit : long ≤ m)
    (before before' mid' pulled' after' mid pulled after : Dict String RevFile) (q p : Made)
    (hq : q.pass.MakesWith sch spread late long q.time q.tags before' mid' pulled' after')
    (hm : p.pass.MakesWith sch spread late long p.time p.tags before mid pulled after)
    (soon : p.pass.plan ≤ q.pass.start + long ∧ ∀ tag, q.pass.expiry tag ≤ p.pass.plan)
    (hnow : now ≤ p.pass.done) (hv : q.pass.VisibleWith sch mid' pulled' s.src.repo.files) :
    ∃ τ, now - (m + late + 2 * long + seconds 1) ≤ τ ∧ τ ≤ now ∧
      (Commands.main env x dry (.restore "last(clean&local)") s).1 = 0 ∧
      (Commands.restoreCmd env x "last(clean&local)" s.connect).2 = some (img τ) := by
  have p4 := planned_soon_with hp hm
  have b1 := hm.inTime.begins
  have b2 := hm.inTime.ends.1
  have b3 := hm.inTime.ends.2.1
  obtain ⟨r, r1, r2, r3, r4⟩ := made_visible sch m spread late long hs hp hfit before' mid' pulled' after' q _ hq soon _ hv
  obtain ⟨τ, a, b, c, d⟩ := C131_not_older env img lag s0 s now h0 h hcoll x sch hx dry hid r.uuid r r1 r3 r2
  refine ⟨τ, ?_, b, c, d⟩
  have := soon.1
  omega

/-! ## A concrete case -/

/-- The image changes at noon of day 100. -/
def exImg (τ : Int) : Bytes := if τ < seconds (100 * DAY + 12 * HOUR) then [0, 0, 0, 0, 1, 1, 1, 1] else [0, 0, 0, 0, 2, 2, 2, 2]

/-- After the backup at midnight. -/
def exMidnight : Sys :=
  (runBackup Test.env false (idealRbd [0, 0, 0, 0, 1, 1, 1, 1] [0]) "a" (seconds (100 * DAY + 60)) {"daily", "weekly"} exNew.connect).2

/-- The directory then ... -/
def exMidA : Dict String RevFile :=
  [("a", ⟨false, finished (idealRbd [] []) (newRev "a" (seconds (100 * DAY + 60)) {"daily", "weekly"})⟩)]

/-- ... and after the backup of the next night. -/
def exMidB : Dict String RevFile :=
  exMidA ++ [("b", ⟨false, finished (idealRbd [] []) (newRev "b" (seconds (101 * DAY + 60)) {"daily"})⟩)]

theorem exMidnight_files : exMidnight.src.repo.files = exMidA := by decide +kernel

theorem exMidA_named : Named exMidA := by
  refine ⟨by decide, ?_⟩
  intro n f hm _
  simp only [exMidA, List.mem_cons, Prod.mk.injEq, List.not_mem_nil, or_false] at hm
  rcases hm with ⟨rfl, rfl⟩; rfl

theorem exMidB_named : Named exMidB := by
  refine ⟨by decide, ?_⟩
  intro n f hm _
  simp only [exMidB, exMidA, List.cons_append, List.nil_append, List.mem_cons, Prod.mk.injEq, List.not_mem_nil, or_false] at hm
  rcases hm with ⟨rfl, rfl⟩ | ⟨rfl, rfl⟩ <;> rfl

theorem exNight1 : exQ.MakesWith exSchedule 0 (seconds 60) (seconds 1000) (seconds (100 * DAY)) {"daily", "weekly"} [] exMidA exMidA exMidA := by
  refine ⟨exQ_makes.era, rfl, exQ_makes.planned, exQ_makes.inTime, ?_, SameLocal.refl exMidA_named, by decide +kernel⟩
  refine Backs.toLocal ⟨by decide, by simp⟩ ⟨exMidA_named, ⟨_, rfl, rfl, rfl, rfl, rfl⟩, ?_, exComplete (by decide +kernel), ?_⟩
  · intro r hr
    cases hr
  · intro u r hr hne
    have hm := Dict.mem_of_get? (onDisk_eq_some.1 hr)
    simp only [exMidA, List.mem_cons, Prod.mk.injEq, List.not_mem_nil, or_false] at hm
    exact absurd hm.1 hne

theorem exNight2 : exP.MakesWith exSchedule 0 (seconds 60) (seconds 1000) (seconds (101 * DAY)) {"daily"} exMidA exMidB exMidB exMidB := by
  refine ⟨exP_makes.era, rfl, by decide +kernel, exP_makes.inTime, ?_, SameLocal.refl exMidB_named, by decide +kernel⟩
  refine Backs.toLocal exMidA_named ⟨exMidB_named, ⟨_, rfl, rfl, rfl, rfl, rfl⟩, ?_, exComplete (by decide +kernel), ?_⟩
  · intro r hr _ hne
    have hm := Dict.mem_of_get? (onDisk_eq_some.1 hr)
    simp only [exMidA, List.mem_cons, Prod.mk.injEq, List.not_mem_nil, or_false] at hm
    obtain ⟨h1, h2⟩ := hm
    refine ⟨r, ?_, rfl, rfl, rfl⟩
    rw [h1]
    simp only [RevFile.mk.injEq, true_and] at h2
    rw [h2]
    decide +kernel
  · intro u r hr hne
    have hm := Dict.mem_of_get? (onDisk_eq_some.1 hr)
    simp only [exMidB, exMidA, List.cons_append, List.nil_append, List.mem_cons, Prod.mk.injEq, List.not_mem_nil, or_false] at hm
    rcases hm with ⟨h1, _⟩ | ⟨h1, _⟩
    · exact ⟨_, by rw [h1]; rfl, by decide⟩
    · exact absurd h1 hne

/-- In the evening: the guest has changed the image, garbage has been collected. -/
def exEvening : Sys :=
  let s : Sys := { exMidnight with ceph := { exMidnight.ceph with image := [0, 0, 0, 0, 2, 2, 2, 2] } }
  { s.connect with src := s.connect.src.gc.2 }

theorem exEvening_files : exEvening.src.repo.files = exMidA := by decide +kernel

theorem exEvening_timed : Timed Test.env exImg (seconds 60) exNew exEvening (seconds (100 * DAY + 20 * HOUR)) := by
  refine .other _ _ _ (.other _ _ _ (.later _ (seconds (100 * DAY + 660)) _ (.backup exNew 0 (seconds (100 * DAY + 120)) _ false
    (idealRbd [0, 0, 0, 0, 1, 1, 1, 1] [0]) "a" (seconds (100 * DAY + 60)) {"daily", "weekly"} (.start 0) exFirst_fresh exFirst_works.faithful
    ⟨by decide, by decide, by decide, by decide⟩ (by decide)) (by decide)) (.guest _ [0, 0, 0, 0, 2, 2, 2, 2]) ?_) (.gc _) ?_
  · intro u r hr _
    exact ⟨r, hr⟩
  · intro u r hr _
    have h : onDisk exEvening.src.repo.files u = some r := hr
    rw [exEvening_files, ← exMidnight_files] at h
    exact ⟨r, h⟩

/-- Test (C131): in the evening the image of the night before can be restored. -/
example (x : Commands.Outside) (hx : x.sch = some exSchedule) : ∃ τ, seconds (100 * DAY + 20 * HOUR) -
      (seconds DAY + seconds 60 + 2 * seconds 1000 + seconds 1) ≤ τ ∧ τ ≤ seconds (100 * DAY + 20 * HOUR) ∧
      (Commands.main Test.env x false (.restore "last(clean&local)") exEvening).1 = 0 ∧
      (Commands.restoreCmd Test.env x "last(clean&local)" exEvening.connect).2 = some (exImg τ) :=
  C131_recovery_point Test.env exImg (seconds 60) exNew exEvening (seconds (100 * DAY + 20 * HOUR)) exNew_initial exEvening_timed (Test.collFree _) x exSchedule hx
    false (by
      intro u r hr
      rw [exEvening_files] at hr
      have hm := Dict.mem_of_get? (onDisk_eq_some.1 hr)
      simp only [exMidA, List.mem_cons, Prod.mk.injEq, List.not_mem_nil, or_false] at hm
      rw [hm.1]; decide)
    (seconds DAY) 0 (seconds 60) (seconds 1000) exSchedule_good exSchedule_proper (by decide) exMidA [] exMidA exMidA exMidA exMidB exMidB exMidB
    ⟨exQ, _, _⟩ ⟨exP, _, _⟩ exNight1 exNight2 ⟨by decide, fun _ => (by show seconds _ ≤ seconds _; decide)⟩ (by decide)
    ⟨exMidA, .inl rfl, by rw [exEvening_files]; exact SameLocal.refl exMidA_named⟩

example (x : Commands.Outside) (hx : x.sch = some exSchedule) :=
  C131_one_moment Test.env exImg (seconds 60) exNew exEvening _ exNew_initial exEvening_timed (Test.collFree _) x exSchedule hx false "a"
    (finished (idealRbd [] []) (newRev "a" (seconds (100 * DAY + 60)) {"daily", "weekly"})) (by
      have h : exEvening.src.repo.scan.history = [finished (idealRbd [] []) (newRev "a" (seconds (100 * DAY + 60)) {"daily", "weekly"})] := by
        decide +kernel
      rw [h]; rfl) rfl rfl

end Verif.Recovery
