import Verif.Spec.Timeline
import Verif.Props.Expiry
import Verif.Props.Record
import Verif.Props.Conc
/-!
# C85, C86: a job that runs in time keeps its promises
-/
namespace Verif.Timeline
open Verif Verif.Repo Verif.Repo.Spec Verif.Backup Verif.Chunked Verif.Spec Verif.Rbd

theorem mem_connected {files : Dict String RevFile} (hn : Named files) (r : Rev) :
    r ∈ (connected files).history ↔ onDisk files r.uuid = some r := Repo.scan_mem (s := ⟨files, [], []⟩) hn r

/-- The newest carrier of a tag of the schedule keeps it through expiry. -/
theorem survives {sch : Schedule} (hs : GoodSchedule sch) (p : Pass) {mid view : Dict String RevFile} (hn : Named mid)
    (hv : p.Visible sch mid view) {tag : String} {a : TagSpec} (ha : (tag, a) ∈ sch) {x : Rev}
    (hx : onDisk mid x.uuid = some x) (ht : tag ∈ x.tags) :
    ∃ r', onDisk view r'.uuid = some r' ∧ tag ∈ r'.tags ∧ x.ts ≤ r'.ts ∧ Named view ∧
      ∃ r, onDisk mid r'.uuid = some r ∧ r'.stats = r.stats ∧ r'.ts = r.ts := by
  rcases hv with rfl | hv
  · exact ⟨x, hx, ht, le_rfl, hn, x, hx, rfl, rfl⟩
  · obtain ⟨s', K, h1, h2, _⟩ := expire_ok hs p.expiry p.pd (connected mid) hn rfl
    rw [h1] at hv
    obtain ⟨h, T, K', hM⟩ := h2.log _ hv
    have hscan : (connected mid).scan.history = (connected mid).history := rfl
    rw [hscan] at hM
    have hsorted : (carriers (connected mid).history tag).Pairwise (fun a b => a.ts ≤ b.ts) :=
      (Repo.scan_sorted ⟨mid, [], []⟩).sublist List.filter_sublist
    have hxc : x ∈ carriers (connected mid).history tag := by
      unfold carriers
      rw [List.mem_filter]
      exact ⟨(mem_connected hn x).2 hx, by simpa using ht⟩
    obtain ⟨y, hy⟩ : ∃ y, (carriers (connected mid).history tag).getLast? = some y := by
      cases hl : (carriers (connected mid).history tag).getLast? with
      | none => rw [List.getLast?_eq_none_iff] at hl; rw [hl] at hxc; simp at hxc
      | some y => exact ⟨y, rfl⟩
    have hyc := List.mem_of_getLast? hy
    have hyH : y ∈ (connected mid).history ∧ tag ∈ y.tags := by
      unfold carriers at hyc
      rw [List.mem_filter] at hyc
      exact ⟨hyc.1, by simpa using hyc.2⟩
    obtain ⟨l, hl⟩ := List.getLast?_eq_some_iff.1 hy
    have hle : x.ts ≤ y.ts := by
      rw [hl] at hxc hsorted
      rcases List.mem_append.1 hxc with h | h
      · exact (List.pairwise_append.1 hsorted).2.2 x h y (by simp)
      · simp only [List.mem_singleton] at h; rw [h]
    have hkept : tag ∈ keptTags sch p.expiry (connected mid).history y := by
      rw [mem_keptTags]
      refine ⟨hyH.2, .inr (List.mem_map.2 ⟨_, ha, rfl⟩), ?_⟩
      rintro ⟨a', ha', h1, _⟩
      apply h1
      unfold AmongNewest
      rw [hl, List.reverse_append]
      have := hs.keep _ ha'
      cases hk : a'.keep with
      | zero => rw [hk] at this; exact absurd this (by simp)
      | succ k => simp
    have hK : K' y = true := by
      cases hk : K' y with
      | true => rfl
      | false => rw [(hM.gone y hyH.1 hk).1] at hkept; simp at hkept
    have hmem : y.withTags (T y) ∈ h := by
      rw [hM.hist]
      exact List.mem_map.2 ⟨y, List.mem_filter.2 ⟨hyH.1, hK⟩, rfl⟩
    exact ⟨y.withTags (T y), (hM.disk _ _).2 ⟨hmem, rfl⟩, (hM.sub y hyH.1).1 hkept, hle, hM.named,
      y, (mem_connected hn y).1 hyH.1, rfl, rfl⟩

/-- Expiry keeps the files named. -/
theorem expired_named {sch : Schedule} (hs : GoodSchedule sch) (p : Pass) {mid : Dict String RevFile} (hn : Named mid) :
    Named (p.expired sch mid) := by
  obtain ⟨s', K, h1, h2, _⟩ := expire_ok hs p.expiry p.pd (connected mid) hn rfl
  unfold Pass.expired
  rw [h1]
  exact h2.mid.named

/-- The result of a pass can be seen. -/
theorem visible_expired (sch : Schedule) (p : Pass) (mid : Dict String RevFile) : p.Visible sch mid (p.expired sch mid) := by
  rcases expire_logged sch p.pd p.expiry (connected mid) with h | h
  · exact .inl h
  · exact .inr h

theorem Passes.named {sch : Schedule} {spread late long : Int} {start files : Dict String RevFile} {l : List Made} (hs : GoodSchedule sch)
    (h : Passes sch spread late long start l files) : Named files := by
  cases h with
  | nil hn => exact hn
  | cons x l _ mid _ _ _ _ h =>
    rw [h.expires]
    exact expired_named hs x.pass h.backs.named

/-- A run is planned for at most one shortest interval (and the rounding of C24) ahead. -/
theorem planned_soon {sch : Schedule} {m spread late long t : Int} {tags : Finset String} (hp : Proper sch m) {p : Pass}
    {before mid after : Dict String RevFile} (h : p.Makes sch spread late long t tags before mid after) :
    t ≤ p.plan + m + seconds 1 := by
  have hclock := h.inTime.clock
  obtain ⟨_, _, h4, _⟩ := C25_missed_tags_are_caught_up sch p.plan spread (connected before) p.nowM p.now1 p.now2 t tags
    (fun e he => (h.era e he).trans hclock.1) ⟨hclock.2.2.1, hclock.2.2.2.1⟩ h.planned
  have hm := hp.min
  simp only [List.mem_map] at hm
  obtain ⟨e, he, rfl⟩ := hm
  obtain ⟨i, hi, hei⟩ := hp.whole e he
  have h5 := h4 e.1 e.2 he
  have h6 := C24_within_interval p.plan i spread hi (by rw [← hei]; exact h.era e he) h.inTime.real
  rw [hei] at h5 ⊢
  have := h.inTime.real
  unfold seconds at *
  omega

/-- Some tag of the schedule is due in every run. -/
theorem planned_tag {sch : Schedule} {relative spread : Int} {s : Repo} {nowM now1 now2 t : Int} {tags : Finset String}
    (h : sch.next relative spread s nowM now1 now2 = .ok (t, tags)) : ∃ tag a, (tag, a) ∈ sch ∧ tag ∈ tags := by
  unfold Schedule.next at h
  cases hi : sch.nextIdeal relative spread with
  | error e => rw [hi] at h; cases h
  | ok x =>
    obtain ⟨it, itags⟩ := x
    rw [hi] at h
    dsimp only at h
    have h1 : ∃ tag a, (tag, a) ∈ sch ∧ tag ∈ itags := by
      unfold Schedule.nextIdeal at hi
      rw [show sch.any (fun e => decide (e.2.interval = 0)) = false by
          cases hz : sch.any (fun e => decide (e.2.interval = 0))
          · rfl
          · rw [hz] at hi; cases hi] at hi
      simp only [Bool.false_eq_true, if_false] at hi
      split at hi
      · cases hi
      · rename_i t' ht
        cases hi
        rw [List.min?_eq_some_iff] at ht
        have := ht.1
        simp only [List.map_map, List.mem_map, Function.comp] at this
        obtain ⟨e, he, het⟩ := this
        refine ⟨e.1, e.2, he, ?_⟩
        simp only [List.mem_toFinset, List.mem_map, List.mem_filter, decide_eq_true_eq]
        exact ⟨_, ⟨⟨e, he, rfl⟩, het⟩, rfl⟩
    have h2 : sch.missed s nowM ≠ ∅ → ∃ tag a, (tag, a) ∈ sch ∧ tag ∈ sch.missed s nowM := by
      intro hne
      obtain ⟨tag, ht⟩ := Finset.nonempty_iff_ne_empty.2 hne
      refine ⟨tag, ?_⟩
      unfold Schedule.missed at ht
      simp only [List.mem_toFinset, List.mem_map, List.mem_filter] at ht
      obtain ⟨e, ⟨he, _⟩, rfl⟩ := ht
      refine ⟨e.2, he, ?_⟩
      unfold Schedule.missed
      simp only [List.mem_toFinset, List.mem_map, List.mem_filter]
      exact ⟨e, ⟨he, by assumption⟩, rfl⟩
    obtain ⟨tag, a, h3, h4⟩ := h1
    by_cases hc : sch.missed s nowM ≠ ∅ ∧ s.history ≠ []
    · rw [if_pos hc] at h
      split at h
      · cases h; exact h2 hc.1
      · cases h; exact ⟨tag, a, h3, Finset.mem_union_left _ h4⟩
    · rw [if_neg hc] at h
      cases h; exact ⟨tag, a, h3, Finset.mem_union_left _ h4⟩

/-- **C85** A job that makes its backups in time, that is, whose revisions start at most `late` after the planned time and whose runs
take at most `long`, never violates its SLA, provided `late` and twice `long` (and a second) do not exceed half of the shortest
interval: after any backup `q`, at every time until the end of the next backup `p`, whatever state the expiry is in. -/
theorem C85_sla_held (sch : Schedule) (m spread late long : Int) (hs : GoodSchedule sch) (hp : Proper sch m)
    (hfit : 2 * (late + 2 * long + seconds 1) ≤ m) (before before' mid' mid after : Dict String RevFile) (q p : Made)
    (hq : q.pass.Makes sch spread late long q.time q.tags before' mid' before)
    (hm : p.pass.Makes sch spread late long p.time p.tags before mid after) (soon : p.pass.plan ≤ q.pass.start + long)
    (now : Int) (hnow : now ≤ p.pass.done) (view : Dict String RevFile) (hv : q.pass.Visible sch mid' view) :
    (connected view).slaOverdue sch now = .ok 0 := by
  have p4 := planned_soon hp hm
  obtain ⟨tag, a, ha, htag⟩ := planned_tag hq.planned
  obtain ⟨x, x1, x2, x3, x4, _⟩ := hq.backs.new
  have hxu : x.uuid = q.pass.uuid := onDisk_uuid hq.backs.named x1
  obtain ⟨r', r1, r2, r3, r4, r, s1, s2, s3⟩ := survives hs q.pass hq.backs.named hv ha (x := x) (by rw [hxu]; exact x1)
    (by rw [x3]; exact htag)
  have hc : r'.stats.has "duration" = true := by rw [s2]; exact hq.backs.complete _ _ s1
  have hpos : 0 < m := by
    obtain ⟨e, he, hee⟩ := List.mem_map.1 hp.min
    obtain ⟨i, hi, hei⟩ := hp.whole e he
    have : e.2.interval = m := hee
    unfold seconds at hei
    omega
  refine C30_on_time_is_held (connected view) sch now m (r'.ts + m) r' (Repo.scan_sorted ⟨view, [], []⟩) hp.min hp.least hpos
    ((mem_connected r4 r').2 r1) hc le_rfl ?_
  have := hm.inTime.begins
  have := hm.inTime.ends.1
  have := hm.inTime.ends.2.1
  unfold seconds at *
  omega

/-- **C86** In the same situation, without any condition on `late` and `long`: for every tag of the schedule there is always a
complete revision that carries it and is not older than the interval of the tag, two shortest intervals and twice the delays. -/
theorem C86_tags_recur (sch : Schedule) (m spread late long : Int) (hs : GoodSchedule sch) (hp : Proper sch m)
    (start before before' mid' mid after : Dict String RevFile) (q p : Made) (l : List Made)
    (hl : Passes sch spread late long start l before')
    (hq : q.pass.Makes sch spread late long q.time q.tags before' mid' before)
    (hm : p.pass.Makes sch spread late long p.time p.tags before mid after) (soon : p.pass.plan ≤ q.pass.start + long)
    (now : Int) (hnow : now ≤ p.pass.done) (view : Dict String RevFile) (hv : q.pass.Visible sch mid' view)
    (tag : String) (a : TagSpec) (ha : (tag, a) ∈ sch) :
    ∃ r ∈ (connected view).history, r.clean = true ∧ tag ∈ r.tags ∧
      now - r.ts ≤ a.interval + 2 * m + 2 * late + 2 * long + 2 * seconds 1 := by
  have hb0 := hl.named hs
  have q4 := planned_soon hp hq
  have p4 := planned_soon hp hm
  have hclock := hq.inTime.clock
  obtain ⟨c1, _, _, _⟩ := C25_missed_tags_are_caught_up sch q.pass.plan spread (connected before') q.pass.nowM q.pass.now1 q.pass.now2
    q.time q.tags (fun e he => (hq.era e he).trans hclock.1) ⟨hclock.2.2.1, hclock.2.2.2.1⟩ hq.planned
  have hb := hm.inTime.begins
  have he := hm.inTime.ends
  have hqb := hq.inTime.begins
  have hpos : 0 ≤ a.interval ∧ 0 ≤ m := by
    obtain ⟨e, he, hee⟩ := List.mem_map.1 hp.min
    obtain ⟨i, hi, hei⟩ := hp.whole e he
    obtain ⟨j, hj, hej⟩ := hp.whole _ ha
    have : e.2.interval = m := hee
    unfold seconds at hei hej
    dsimp only at hej
    omega
  -- a young enough carrier after the backup is enough
  have hfin : ∀ x, onDisk mid' x.uuid = some x → tag ∈ x.tags → q.pass.plan - a.interval ≤ x.ts ∨ q.pass.start ≤ x.ts →
      ∃ r ∈ (connected view).history, r.clean = true ∧ tag ∈ r.tags ∧
        now - r.ts ≤ a.interval + 2 * m + 2 * late + 2 * long + 2 * seconds 1 := by
    intro x hx htag hage
    obtain ⟨r', r1, r2, r3, r4, r, s1, s2, s3⟩ := survives hs q.pass hq.backs.named hv ha hx htag
    refine ⟨r', (mem_connected r4 r').2 r1, ?_, r2, ?_⟩
    · show r'.stats.has "duration" = true
      rw [s2]; exact hq.backs.complete _ _ s1
    · have h1 := he.1
      have h2 := he.2.1
      clear he
      unfold seconds at *
      omega
  by_cases hmiss : Missed sch (connected before') q.pass.nowM tag
  · obtain ⟨x, x1, x2, x3, _⟩ := hq.backs.new
    exact hfin x (by rw [onDisk_uuid hq.backs.named x1]; exact x1) (by rw [x3]; exact c1 tag hmiss) (.inr (by omega))
  · unfold Missed at hmiss
    push Not at hmiss
    obtain ⟨r, h1, h2, h3, h4⟩ := hmiss a ha
    have hr := (mem_connected hb0 r).1 h1
    have hne : r.uuid ≠ q.pass.uuid := by
      intro h
      rw [h, hq.fresh] at hr
      cases hr
    obtain ⟨r', k1, k2, k3, _⟩ := hq.backs.kept r hr h2 hne
    exact hfin r' (by rw [onDisk_uuid hq.backs.named k1]; exact k1) (by rw [k3]; exact h3) (.inl (by omega))

/-! ## The backups of `Model/Backup.lean` are such backups -/

theorem all_verifyMark {P : Rev → Prop} (hP : Core P) (env : Env) (order : List Hash → List Hash) {s : Src} (h : All P s.repo)
    {r : Rev} (hr : P r) : All P (Src.verifyMark env order s r).2.repo := by
  unfold Src.verifyMark
  split
  · exact h
  · split
    · exact h.remove hP hr false
    · split
      · exact h
      · exact h.store (hP r _ hr rfl rfl rfl rfl)

theorem all_verifyDistrusted {P : Rev → Prop} (hP : Core P) (env : Env) (o : Rbd) {s : Src} (h : All P s.repo) :
    All P (verifyDistrusted env o s).2.repo := by
  unfold verifyDistrusted
  cases hf : (s.repo.scan.getHistory true true).reverse.find? (fun r => decide (r.trust = .distrusted)) with
  | none => exact h.scan
  | some r =>
    have hr : P r := h.scan.hist r (List.mem_of_mem_filter (List.mem_reverse.1 (List.mem_of_find?_eq_some hf)))
    have hm := all_verifyMark hP env o.order (s := { s with repo := s.repo.scan }) h.scan hr
    dsimp only
    unfold Src.verify
    split
    · rename_i heq; rw [heq] at hm; exact hm
    · rename_i heq; rw [heq] at hm; rw [gc_repo]; exact hm

theorem all_conclude {P : Rev → Prop} (hP : Core P) (env : Env) (o : Rbd) {r : Rev} (hr : P r) (hf : P (finished o r)) (v : Bool)
    {s : Src} (h : All P s.repo) : All P (conclude env o r v s).2.repo := by
  have h1 : All P (if v then { s with repo := s.repo.store (finished o r) } else { s with repo := s.repo.remove r } : Src).repo := by
    split
    · exact h.store hf
    · exact h.remove hP hr false
  have h2 := all_verifyDistrusted hP env o h1
  unfold conclude
  split
  · rename_i heq; rw [heq] at h2; exact h2
  · rename_i heq; rw [heq] at h2; exact h2

theorem all_afterSnapshot {P : Rev → Prop} (hP : Core P) (env : Env) (o : Rbd) {r : Rev} (hr : P r) (hf : P (finished o r))
    (res : Except PyErr Bool) {s : Src} (h : All P s.repo) : All P (afterSnapshot env o r res s).2.repo := by
  unfold afterSnapshot
  split
  · exact all_conclude hP env o hr hf _ h
  · have hd := All.distrust hP s.repo.localHistory h (fun r hr => h.hist r (List.mem_of_mem_filter hr))
    split
    · rename_i heq; rw [heq] at hd; exact hd
    · rename_i heq
      rw [heq] at hd
      exact all_conclude hP env o hr hf false (s := { s with repo := _ }) hd
  · exact h

/-- What holds for all revisions and does not depend on tags or trust, holds after a run. -/
theorem runBackup_all {P : Rev → Prop} (hP : Core P) (env : Env) (af : Bool) (o : Rbd) (uuid : String) (ts : Int)
    (tags : Finset String) (hr : P (newRev uuid ts tags)) (hf : P (finished o (newRev uuid ts tags))) (s : Sys) (h : All P s.src.repo) :
    All P (runBackup env af o uuid ts tags s).2.src.repo := by
  rw [(runBackup_launch env af o uuid ts tags s h.named).1]
  have hl : All P (s.launch uuid ts tags).src.repo := ((h.clean hP).writeInfo hr).scan
  unfold backup
  split
  · exact hl
  · split
    · exact hl
    · exact all_afterSnapshot hP env o hr hf _ (s := { (s.launch uuid ts tags).src with w := _ }) hl

/-- Every successful backup of a reachable repository is one in the sense of `Backs`. -/
theorem runBackup_backs (env : Env) (s0 s : Sys) (h0 : Initial s0) (hs : Steps env s0 s) (af : Bool) (o : Rbd)
    (ho : ∀ l, (o.order l).Perm l) (uuid : String) (ts : Int) (tags : Finset String) (hu : Fresh s uuid)
    (hcoll : CollFree env.H (runBackup env af o uuid ts tags s.connect).2.src.w.log)
    (hremote : ∀ u r, onDisk s.src.repo.files u = some r → r.server ≠ "" → r.clean = true)
    (hok : (runBackup env af o uuid ts tags s.connect).1 = 0) :
    Backs s.src.repo.files (cleaned (runBackup env af o uuid ts tags s.connect).2.src.repo.files) uuid ts tags := by
  have hlog0 : s.src.w.log ⊆ (runBackup env af o uuid ts tags s.connect).2.src.w.log := runBackup_log env af o uuid ts tags s.connect
  have hn : Named s.src.repo.files := ((Good.initial (env := env) h0).steps hcoll hs hlog0).disk.named
  have hP : Core (fun r : Rev => r.server ≠ "" → r.clean = true) := by
    intro r r' h h1 h2 h3 _ h4
    rw [h2] at h4
    show r'.stats.has "duration" = true
    rw [h3]; exact h h4
  have hall : All (fun r : Rev => r.server ≠ "" → r.clean = true) s.connect.src.repo :=
    ⟨fun r hr => hremote _ r ((Repo.scan_mem hn r).1 hr), hremote, hn⟩
  have hA := runBackup_all hP env af o uuid ts tags (by intro h; exact absurd rfl h) (by intro h; exact absurd rfl h) s.connect hall
  have hQ : Core (fun r : Rev => r.uuid = uuid ∨ ∃ r0, onDisk s.src.repo.files r.uuid = some r0 ∧ r0.server = r.server ∧ r0.stats = r.stats) := by
    intro r r' h h1 h2 h3 _
    rw [h1, h2, h3]; exact h
  have hall' : All (fun r : Rev => r.uuid = uuid ∨ ∃ r0, onDisk s.src.repo.files r.uuid = some r0 ∧ r0.server = r.server ∧ r0.stats = r.stats)
      s.connect.src.repo :=
    ⟨fun r hr => .inr ⟨r, (Repo.scan_mem hn r).1 hr, rfl, rfl⟩,
      fun u r hr => .inr ⟨r, by rw [onDisk_uuid hn hr]; exact hr, rfl, rfl⟩, hn⟩
  have hB := runBackup_all hQ env af o uuid ts tags (.inl rfl) (.inl rfl) s.connect hall'
  have hcl : ∀ u, onDisk (cleaned (runBackup env af o uuid ts tags s.connect).2.src.repo.files) u =
      (onDisk (runBackup env af o uuid ts tags s.connect).2.src.repo.files u).filter (fun r => !(decide (r.server = "") && !r.clean)) :=
    fun u => Conc.C39_clean_current_partial ⟨(runBackup env af o uuid ts tags s.connect).2.src.repo.files, [], []⟩ hA.named u
  have hkeep : ∀ u r, onDisk (runBackup env af o uuid ts tags s.connect).2.src.repo.files u = some r → r.clean = true →
      onDisk (cleaned (runBackup env af o uuid ts tags s.connect).2.src.repo.files) u = some r := by
    intro u r h hc
    rw [hcl, h]
    simp [hc]
  refine ⟨?_, ?_, ?_, ?_, ?_⟩
  · exact ((Sync.scan (s := ⟨(runBackup env af o uuid ts tags s.connect).2.src.repo.files, [], []⟩) hA.named) |> clean_complete).1.named
  · obtain ⟨x, x1, x2⟩ := C16_success_complete_partial env af o uuid ts tags s.connect hn hok
    have := C81_record env af o uuid ts tags s.connect hn x x1 x2
    exact ⟨x, hkeep _ _ x1 x2, this.2.1, this.2.2.1, x2, this.2.2.2.2.1⟩
  · intro r hr hc hne
    by_cases hl : r.server = ""
    · obtain ⟨t, ht⟩ := C83_none_removed env s0 s h0 hs af o ho uuid ts tags hu hcoll r hr hc hl hne
      exact ⟨_, hkeep _ _ ht hc, rfl, rfl, rfl⟩
    · exact ⟨r, hkeep _ _ (C83_remote_untouched env af o uuid ts tags s hn r hr hne hl) hc, rfl, rfl, rfl⟩
  · intro u r hr
    rw [hcl, Option.filter_eq_some_iff] at hr
    by_cases hl : r.server = ""
    · simpa [hl] using hr.2
    · exact hA.disk u r hr.1 hl
  · intro u r hr hne
    have hO := hB.disk u r
    rw [hcl, Option.filter_eq_some_iff] at hr
    have hru : r.uuid = u := onDisk_uuid hB.named hr.1
    rcases hO hr.1 with h | ⟨r0, h1, h2, h3⟩
    · exact absurd (hru.symm.trans h) hne
    · refine ⟨r0, by rw [← hru]; exact h1, ?_⟩
      show r0.stats.has "duration" = true
      rw [h3]
      have : r.clean = true := by
        by_cases hl : r.server = ""
        · simpa [hl] using hr.2
        · exact hA.disk u r hr.1 hl
      exact this

/-! ## A concrete job -/

/-- A pass planned one hour before midnight of day `n`, whose backup takes ten minutes. -/
def exPass (uuid : String) (plan start : Int) : Pass :=
  { plan := seconds plan, nowM := seconds plan, now1 := seconds plan, now2 := seconds plan, start := seconds start,
    done := seconds (start + 600), expiry := fun _ => seconds (start + 700), uuid, pd := fun _ => none }

/-- The first run ... -/
def exQ : Pass := exPass "a" (100 * DAY - HOUR) (100 * DAY + 60)

/-- ... and the one a day later. -/
def exP : Pass := exPass "b" (100 * DAY + 960) (101 * DAY + 60)

/-- The directory after the first backup ... -/
def exMid1 : Dict String RevFile := [("a", ⟨false, mkRev "a" (seconds (100 * DAY + 60)) {"daily", "weekly"}⟩)]

/-- ... and after the second one. -/
def exMid2 : Dict String RevFile :=
  [("a", ⟨false, mkRev "a" (seconds (100 * DAY + 60)) {"daily", "weekly"}⟩), ("b", ⟨false, mkRev "b" (seconds (101 * DAY + 60)) {"daily"}⟩)]

theorem exSchedule_proper : Proper exSchedule (seconds DAY) := by
  refine ⟨?_, by decide, by decide⟩
  intro e he
  simp only [exSchedule, List.mem_cons, List.not_mem_nil, or_false] at he
  rcases he with rfl | rfl
  · exact ⟨DAY, by decide, rfl⟩
  · exact ⟨WEEK, by decide, rfl⟩

theorem exMid2_named : Named exMid2 := by
  refine ⟨by decide, ?_⟩
  intro n f hm _
  simp only [exMid2, List.mem_cons, Prod.mk.injEq, List.not_mem_nil, or_false] at hm
  rcases hm with ⟨rfl, rfl⟩ | ⟨rfl, rfl⟩ <;> rfl

theorem exMid1_named : Named exMid1 := by
  refine ⟨by decide, ?_⟩
  intro n f hm _
  simp only [exMid1, List.mem_cons, Prod.mk.injEq, List.not_mem_nil, or_false] at hm
  rcases hm with ⟨rfl, rfl⟩; rfl

theorem exComplete {files : Dict String RevFile} (h : ∀ e ∈ files, e.2.rev.clean = true) (u : String) (r : Rev)
    (hr : onDisk files u = some r) : r.clean = true := h _ (Dict.mem_of_get? (onDisk_eq_some.1 hr))

/-- The first pass, into an empty directory. -/
theorem exQ_makes : exQ.Makes exSchedule 0 (seconds 60) (seconds 1000) (seconds (100 * DAY)) {"daily", "weekly"} [] exMid1 exMid1 := by
  refine ⟨by decide +kernel, rfl, by decide +kernel, ?_, ?_, by decide +kernel⟩
  · exact ⟨by decide, ⟨by decide, by decide, fun _ => (by show seconds _ ≤ seconds _; decide)⟩, by decide, by decide⟩
  · refine ⟨exMid1_named, ⟨_, rfl, rfl, rfl, rfl, rfl⟩, ?_, exComplete (by decide +kernel), ?_⟩
    · intro r hr
      cases hr
    · intro u r hr hne
      have hm := Dict.mem_of_get? (onDisk_eq_some.1 hr)
      simp only [exMid1, List.mem_cons, Prod.mk.injEq, List.not_mem_nil, or_false] at hm
      exact absurd hm.1 hne

/-- The second pass. -/
theorem exP_makes : exP.Makes exSchedule 0 (seconds 60) (seconds 1000) (seconds (101 * DAY)) {"daily"} exMid1 exMid2 exMid2 := by
  refine ⟨by decide +kernel, rfl, by decide +kernel, ?_, ?_, by decide +kernel⟩
  · exact ⟨by decide, ⟨by decide, by decide, fun _ => (by show seconds _ ≤ seconds _; decide)⟩, by decide, by decide⟩
  · refine ⟨exMid2_named, ⟨_, rfl, rfl, rfl, rfl, rfl⟩, ?_, exComplete (by decide +kernel), ?_⟩
    · intro r hr _ hne
      have hm := Dict.mem_of_get? (onDisk_eq_some.1 hr)
      simp only [exMid1, List.mem_cons, Prod.mk.injEq, List.not_mem_nil, or_false] at hm
      obtain ⟨h1, h2⟩ := hm
      refine ⟨r, ?_, rfl, rfl, rfl⟩
      rw [h1]
      simp only [RevFile.mk.injEq, true_and] at h2
      rw [h2]
      decide +kernel
    · intro u r hr hne
      have hm := Dict.mem_of_get? (onDisk_eq_some.1 hr)
      simp only [exMid2, List.mem_cons, Prod.mk.injEq, List.not_mem_nil, or_false] at hm
      rcases hm with ⟨h1, _⟩ | ⟨h1, _⟩
      · exact ⟨_, by rw [h1]; rfl, by decide⟩
      · exact absurd h1 hne

theorem exPasses0 : Passes exSchedule 0 (seconds 60) (seconds 1000) [] [] [] := .nil ⟨by decide, by simp⟩

theorem exPasses : Passes exSchedule 0 (seconds 60) (seconds 1000) []
    [⟨exP, seconds (101 * DAY), {"daily"}⟩, ⟨exQ, seconds (100 * DAY), {"daily", "weekly"}⟩] exMid2 :=
  .cons _ _ exMid1 exMid2 exMid2 (.cons _ _ [] exMid1 exMid1 exPasses0 (by simp) (by simp) exQ_makes) (by decide)
    (by intro q hq; cases hq; decide) exP_makes

/-- Test (C85, C86): up to the end of the second backup. -/
example : (connected exMid1).slaOverdue exSchedule (seconds (101 * DAY + 660)) = .ok 0 :=
  C85_sla_held exSchedule (seconds DAY) 0 (seconds 60) (seconds 1000) exSchedule_good exSchedule_proper (by decide) exMid1 [] exMid1
    exMid2 exMid2 ⟨exQ, _, _⟩ ⟨exP, _, _⟩ exQ_makes exP_makes (by decide) _ (by decide) exMid1 (.inl rfl)

example : ∃ r ∈ (connected exMid1).history, r.clean = true ∧ "weekly" ∈ r.tags ∧
    seconds (101 * DAY + 660) - r.ts ≤ seconds WEEK + 2 * seconds DAY + 2 * seconds 60 + 2 * seconds 1000 + 2 * seconds 1 :=
  C86_tags_recur exSchedule (seconds DAY) 0 (seconds 60) (seconds 1000) exSchedule_good exSchedule_proper [] exMid1 [] exMid1
    exMid2 exMid2 ⟨exQ, _, _⟩ ⟨exP, _, _⟩ [] exPasses0 exQ_makes exP_makes (by decide) _ (by decide) exMid1 (.inl rfl) "weekly"
    ⟨seconds WEEK, 1⟩ (by simp [exSchedule])

/-- A run that comes 13 hours late violates the SLA of a daily schedule before it is done. -/
example : (connected exMid1).slaOverdue exSchedule (seconds (101 * DAY + 13 * HOUR)) ≠ .ok 0 := by decide +kernel

end Verif.Timeline
