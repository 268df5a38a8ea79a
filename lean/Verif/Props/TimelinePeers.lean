import Verif.Spec.TimelinePeers
import Verif.Props.Frequency
import Verif.Props.Pull
import Verif.Props.Push
/-!
# C85, C87, C130 for jobs that exchange metadata with other servers
-/
namespace Verif.Timeline
open Verif Verif.Repo Verif.Repo.Spec Verif.Backup

theorem Backs.toLocal {before after : Dict String RevFile} {uuid : String} {start : Int} {tags : Finset String} (hn : Named before)
    (h : Backs before after uuid start tags) : BacksLocal before after uuid start tags := by
  refine ⟨h.named, h.new, ?_, ?_⟩
  · intro r hr hc hl hne
    obtain ⟨r', k1, k2, k3, k4⟩ := h.kept r hr hc hne
    exact ⟨r', k1, k2, k3, k4.trans hl, h.complete _ _ k1⟩
  · intro u r hr hl hne
    obtain ⟨r0, h1, h2⟩ := h.only u r hr hne
    have hu := onDisk_uuid hn h1
    obtain ⟨r', k1, k2, k3, k4⟩ := h.kept r0 (by rw [hu]; exact h1) h2 (by rw [hu]; exact hne)
    rw [hu, hr] at k1
    cases k1
    exact ⟨r0, h1, h2, k4.symm.trans hl⟩

theorem SameLocal.refl {a : Dict String RevFile} (h : Named a) : SameLocal a a := ⟨h, fun _ _ _ => Iff.rfl⟩

/-- A revision keeps its tags of the schedule through expiry as long as they are no older than `keep` intervals. -/
theorem survives_young {sch : Schedule} (hs : GoodSchedule sch) (p : Pass) {mid view : Dict String RevFile} (hn : Named mid)
    (hv : p.Visible sch mid view) {tag : String} {a : TagSpec} (ha : (tag, a) ∈ sch) {x : Rev}
    (hx : onDisk mid x.uuid = some x) (ht : tag ∈ x.tags) (hage : p.expiry tag - a.keep * a.interval ≤ x.ts) :
    ∃ T, onDisk view x.uuid = some (x.withTags T) ∧ tag ∈ T ∧ T ⊆ x.tags ∧ Named view := by
  rcases hv with rfl | hv
  · exact ⟨x.tags, hx, ht, subset_rfl, hn⟩
  · obtain ⟨s', K, h1, h2, _⟩ := expire_ok hs p.expiry p.pd (connected mid) hn rfl
    rw [h1] at hv
    obtain ⟨h, T, K', hM⟩ := h2.log _ hv
    have hscan : (connected mid).scan.history = (connected mid).history := rfl
    rw [hscan] at hM
    have hxH : x ∈ (connected mid).history := (mem_connected hn x).2 hx
    have hkept : tag ∈ keptTags sch p.expiry (connected mid).history x := by
      rw [mem_keptTags]
      refine ⟨ht, .inr (List.mem_map.2 ⟨_, ha, rfl⟩), ?_⟩
      rintro ⟨a', ha', _, h3⟩
      have : a' = a := by
        have e1 := Dict.get?_of_mem hs.nodup ha
        have e2 := Dict.get?_of_mem hs.nodup ha'
        rw [e1] at e2; cases e2; rfl
      subst this
      omega
    have hK : K' x = true := by
      cases hk : K' x with
      | true => rfl
      | false => rw [(hM.gone x hxH hk).1] at hkept; simp at hkept
    have hmem : x.withTags (T x) ∈ h := by
      rw [hM.hist]
      exact List.mem_map.2 ⟨x, List.mem_filter.2 ⟨hxH, hK⟩, rfl⟩
    exact ⟨T x, (hM.disk _ _).2 ⟨hmem, rfl⟩, (hM.sub x hxH).1 hkept, (hM.sub x hxH).2, hM.named⟩

/-- What holds for the runs so far and the directory. -/
structure InvWith (spread : Int) (tag : String) (a : TagSpec) (late : Int) (l : List Made) (files : Dict String RevFile) : Prop where
  named : Named files
  mine : ∀ x ∈ l, tag ∈ x.tags →
    (∃ r, onDisk files x.pass.uuid = some r ∧ r.clean = true ∧ r.server = "" ∧ tag ∈ r.tags ∧ r.ts = x.pass.start) ∨
    ∃ z ∈ l, x.pass.start + a.interval ≤ z.pass.expiry tag
  own : ∀ u r, onDisk files u = some r → r.server = "" → u ∈ l.map (fun x => x.pass.uuid) → tag ∈ r.tags →
    ∃ x ∈ l, x.pass.uuid = u ∧ r.ts = x.pass.start ∧ tag ∈ x.tags
  apart : l.Pairwise (Apart spread tag a)
  order : l.Pairwise (fun y x => x.pass.start ≤ y.pass.plan ∧ x.pass.start ≤ y.pass.start ∧ x.pass.expiry tag ≤ y.pass.plan)
  before : ∀ x ∈ l, x.time ≤ x.pass.start ∧ x.pass.start ≤ x.time + late ∧ x.pass.start ≤ x.pass.done ∧ x.pass.plan ≤ x.pass.start ∧
    x.pass.done ≤ x.pass.expiry tag
  slots : ∀ y ∈ l, y.slot spread a = true → IsSlot a.interval (seconds spread) y.time ∧ y.pass.plan < y.time

theorem InvWith.spaced {spread : Int} {tag : String} {a : TagSpec} {late : Int} {l : List Made} {files : Dict String RevFile}
    (h : InvWith spread tag a late l files) : Spaced spread tag a late l :=
  ⟨h.apart, fun x hx => ⟨(h.before x hx).1, (h.before x hx).2.1, (h.before x hx).2.2.1⟩⟩

theorem PassesWith.inv {sch : Schedule} (hs : GoodSchedule sch) {spread late long : Int} {start files : Dict String RevFile} {l : List Made}
    (h : PassesWith sch spread late long start l files) {tag : String} {a : TagSpec} (ha : (tag, a) ∈ sch) {i : Int} (hi : 0 < i)
    (hai : a.interval = seconds i) : InvWith spread tag a late l files := by
  have hint : 0 < a.interval := by rw [hai]; unfold seconds; omega
  have hkeep : a.interval ≤ a.keep * a.interval := by
    have hk := hs.keep _ ha
    have h1 : (1 : Int) ≤ a.keep := by
      have : 0 < a.keep := hk
      omega
    have := Int.mul_le_mul_of_nonneg_right h1 hint.le
    omega
  induction h with
  | nil hn => exact ⟨hn, by simp, by simp, .nil, .nil, by simp, by simp⟩
  | exchange l files files' h0 h ih =>
    refine ⟨h.named, ?_, ?_, ih.apart, ih.order, ih.before, ih.slots⟩
    · intro x hx ht
      rcases ih.mine x hx ht with ⟨r, r1, r2, r3, r4⟩ | h1
      · exact .inl ⟨r, (h.same _ _ r3).1 r1, r2, r3, r4⟩
      · exact .inr h1
    · intro u r hr hl
      exact ih.own u r ((h.same _ _ hl).2 hr) hl
  | cons x l before mid pulled after h0 fresh soon hm ih =>
    have hin := hm.inTime
    have hclock := hin.clock
    have hbn := hm.backs.named
    have hpn := hm.pulls.named
    obtain ⟨c1, c2, _, _⟩ := C25_missed_tags_are_caught_up sch x.pass.plan spread (connected before) x.pass.nowM x.pass.now1 x.pass.now2
      x.time x.tags (fun e he => (hm.era e he).trans hclock.1) ⟨hclock.2.2.1, hclock.2.2.2.1⟩ hm.planned
    have hsame : ∀ spec, (tag, spec) ∈ sch → spec = a := by
      intro spec h1
      have e1 := Dict.get?_of_mem hs.nodup ha
      have e2 := Dict.get?_of_mem hs.nodup h1
      rw [e1] at e2; cases e2; rfl
    -- all earlier runs were done before this one was planned
    have hord : ∀ y ∈ l, y.pass.start ≤ x.pass.plan ∧ y.pass.expiry tag ≤ x.pass.plan := by
      intro y hy
      cases l with
      | nil => simp at hy
      | cons z l =>
        obtain ⟨hz, hz2⟩ := soon z rfl
        have hz2 := hz2 tag
        have hzb := ih.before z (by simp)
        rcases List.mem_cons.1 hy with rfl | hy
        · exact ⟨by omega, hz2⟩
        · have := (List.pairwise_cons.1 ih.order).1 y hy
          omega
    have hmem : ∀ r, onDisk mid r.uuid = some r → r.server = "" → r.clean = true → tag ∈ r.tags →
        (∃ r', onDisk after r.uuid = some r' ∧ r'.clean = true ∧ r'.server = "" ∧ tag ∈ r'.tags ∧ r'.ts = r.ts) ∨
        ∃ z ∈ x :: l, r.ts + a.interval ≤ z.pass.expiry tag := by
      intro r hr hl hc ht
      by_cases hage : x.pass.expiry tag - a.keep * a.interval ≤ r.ts
      · obtain ⟨T, t1, t2, t3, t4⟩ := survives_young hs x.pass hpn (visible_expired sch x.pass pulled) ha ((hm.pulls.same _ _ hl).1 hr) ht hage
        exact .inl ⟨r.withTags T, by rw [hm.expires]; exact t1, hc, hl, t2, rfl⟩
      · exact .inr ⟨x, by simp, by omega⟩
    refine ⟨?_, ?_, ?_, ?_, ?_, ?_, ?_⟩
    · rw [hm.expires]; exact expired_named hs x.pass hpn
    · intro y hy hty
      rcases List.mem_cons.1 hy with rfl | hy
      · obtain ⟨n, n1, n2, n3, n4, n5⟩ := hm.backs.new
        have hnu := onDisk_uuid hbn n1
        have := hmem n (by rw [hnu]; exact n1) n5 n4 (by rw [n3]; exact hty)
        rw [hnu, n2] at this
        exact this
      · rcases ih.mine y hy hty with ⟨r, r1, r2, r3, r4, r5⟩ | ⟨z, z1, z2⟩
        · have hru := onDisk_uuid ih.named r1
          have hne : r.uuid ≠ x.pass.uuid := by
            intro h; rw [← hru, h, hm.fresh] at r1; cases r1
          obtain ⟨r', k1, k2, k3, k4, k5⟩ := hm.backs.kept r (by rw [hru]; exact r1) r2 r3 hne
          have hru' := onDisk_uuid hbn k1
          have := hmem r' (by rw [hru']; exact k1) k4 k5 (by rw [k3]; exact r4)
          rw [hru', hru, k2, r5] at this
          exact this
        · exact .inr ⟨z, by simp [z1], z2⟩
    · -- own revisions
      intro u r hr hl hu ht
      rw [hm.expires, expired_spec hs x.pass hpn] at hr
      obtain ⟨r0, h1, rfl, _⟩ := hr
      have ht0 : tag ∈ r0.tags := keptTags_sub r0 ht
      have hl0 : r0.server = "" := hl
      have h1 := (hm.pulls.same _ _ hl0).2 h1
      by_cases hux : u = x.pass.uuid
      · obtain ⟨n, n1, n2, n3, _⟩ := hm.backs.new
        rw [hux, n1] at h1
        cases h1
        exact ⟨x, by simp, hux.symm, n2, by rw [← n3]; exact ht0⟩
      · have hul : u ∈ l.map (fun x => x.pass.uuid) := by
          simp only [List.map_cons, List.mem_cons] at hu
          exact hu.resolve_left hux
        obtain ⟨b, b1, b2, b3⟩ := hm.backs.only u r0 h1 hl0 hux
        have hbu : b.uuid = u := onDisk_uuid ih.named b1
        obtain ⟨r', k1, k2, k3, _⟩ := hm.backs.kept b (by rw [hbu]; exact b1) b2 b3 (by rw [hbu]; exact hux)
        rw [hbu, h1] at k1
        cases k1
        obtain ⟨y, y1, y2, y3, y4⟩ := ih.own u b b1 b3 hul (by rw [← k3]; exact ht0)
        exact ⟨y, by simp [y1], y2, by rw [← y3]; exact k2, y4⟩
    · refine List.pairwise_cons.2 ⟨?_, ih.apart⟩
      intro y hy htx hty
      have hord' := hord y hy
      constructor
      · intro hslot
        have hmiss : Missed sch (connected before) x.pass.nowM tag := by
          rcases c2 tag htx with h | ⟨spec, h1, h2⟩
          · exact h
          · rw [hsame spec h1] at h2
            simp [Made.slot, h2] at hslot
        obtain ⟨spec, h1, h2⟩ := hmiss
        rw [hsame spec h1] at h2
        rcases ih.mine y hy hty with ⟨r, r1, r2, r3, r4, r5⟩ | ⟨z, z1, z2⟩
        · have := h2 r ((mem_connected ih.named r).2 (by rw [onDisk_uuid ih.named r1]; exact r1)) r2 r4
          omega
        · have := (hord z z1).2
          omega
      · intro h1 h2
        have hys := (ih.slots y hy h2).1
        simp only [Made.slot, decide_eq_true_eq] at h1
        have hx := C24_next_slot x.pass.plan i spread hi (by rw [← hai]; exact hm.era _ ha) hin.real
        rw [← hai, h1] at hx
        have hb := ih.before y hy
        exact slots_apart hint hys hx.1 (by omega)
    · refine List.pairwise_cons.2 ⟨?_, ih.order⟩
      intro y hy
      have := hord y hy
      omega
    · intro y hy
      rcases List.mem_cons.1 hy with rfl | hy
      · have h1 := hin.begins
        have h2 := hin.ends.1
        have h3 := hin.ends.2.2 tag
        omega
      · exact ih.before y hy
    · intro y hy hsl
      rcases List.mem_cons.1 hy with rfl | hy
      · simp only [Made.slot, decide_eq_true_eq] at hsl
        have := C24_next_slot y.pass.plan i spread hi (by rw [← hai]; exact hm.era _ ha) hin.real
        rw [← hai, hsl] at this
        exact ⟨this.1, this.2.1⟩
      · exact ih.slots y hy hsl

theorem PassesWith.has_tag {sch : Schedule} {spread late long : Int} {start files : Dict String RevFile} {l : List Made}
    (h : PassesWith sch spread late long start l files) : ∀ x ∈ l, ∃ tag a, (tag, a) ∈ sch ∧ tag ∈ x.tags := by
  induction h with
  | nil _ => simp
  | exchange _ _ _ _ _ ih => exact ih
  | cons z l _ _ _ _ _ _ _ hz ih =>
    intro x hx
    rcases List.mem_cons.1 hx with rfl | hx
    · exact planned_tag hz.planned
    · exact ih x hx

/-- **C130** The same for jobs that exchange metadata with other servers: a later run `y` gets a tag that an earlier run `x` got only if a whole
interval of the tag has passed between the two backups, or if `y` is for a regular slot of the tag that comes after `x`. -/
theorem C130_apart_with_peers (sch : Schedule) (m spread late long : Int) (hs : GoodSchedule sch) (hp : Proper sch m)
    (start files : Dict String RevFile) (l : List Made) (h : PassesWith sch spread late long start l files) :
    l.Pairwise (fun y x => ∀ tag a, (tag, a) ∈ sch → tag ∈ y.tags → tag ∈ x.tags →
      x.pass.start + a.interval ≤ y.pass.start ∨
      (IsSlot a.interval (seconds spread) y.time ∧ x.time < y.time ∧ x.pass.start < y.time)) := by
  rw [List.pairwise_iff_forall_sublist]
  intro y x hyx tag a ha hty htx
  obtain ⟨i, hi, hai⟩ := hp.whole _ ha
  have hinv := h.inv hs ha hi hai
  have hap := List.pairwise_iff_forall_sublist.1 hinv.apart hyx hty htx
  have ho := List.pairwise_iff_forall_sublist.1 hinv.order hyx
  have hb := hinv.before x (hyx.subset (by simp))
  cases hsl : y.slot spread a with
  | false => exact .inl (hap.1 hsl)
  | true =>
    obtain ⟨s1, s2⟩ := hinv.slots y (hyx.subset (by simp)) hsl
    exact .inr ⟨s1, by omega, by omega⟩

/-- **C130** The same for jobs that exchange metadata with other servers: the number of backups in any period. -/
theorem C130_window_with_peers (sch : Schedule) (m spread late long : Int) (hs : GoodSchedule sch) (hp : Proper sch m) (hlate : late < m)
    (start files : Dict String RevFile) (l : List Made) (h : PassesWith sch spread late long start l files) (lo : Int) (w : Nat) :
    (l.filter (fun x => decide (lo ≤ x.pass.start ∧ x.pass.start ≤ lo + w))).length ≤
      (sch.map (fun e => 2 * (w / e.2.interval.toNat) + 4)).sum := by
  refine runs_in_period (spread := spread) hp hlate h.has_tag (fun tag a ha => ?_) lo w
  obtain ⟨i, hi, hai⟩ := hp.whole _ ha
  exact (h.inv hs ha hi hai).spaced

/-- **C130** ... and with a tag. -/
theorem C130_tag_window_with_peers (sch : Schedule) (m spread late long : Int) (hs : GoodSchedule sch) (hp : Proper sch m)
    (start files : Dict String RevFile) (l : List Made) (h : PassesWith sch spread late long start l files)
    (tag : String) (a : TagSpec) (ha : (tag, a) ∈ sch) (hlate : late < a.interval) (n : Nat) (lo : Int) :
    (l.filter (fun x => decide (tag ∈ x.tags ∧ lo ≤ x.pass.start ∧ x.pass.start ≤ lo + n * a.interval))).length ≤ 2 * n + 2 := by
  obtain ⟨i, hi, hai⟩ := hp.whole _ ha
  have hai : a.interval = seconds i := hai
  exact runs_in_any_window (h.inv hs ha hi hai).spaced (by rw [hai]; unfold seconds; omega) hlate n lo

/-- The local revisions of the directory that these runs have made and that carry the tag. -/
def localCarriers (l : List Made) (files : Dict String RevFile) (tag : String) : List Rev :=
  (connected files).history.filter (fun r => decide (r.server = "" ∧ tag ∈ r.tags ∧ r.uuid ∈ l.map (fun x => x.pass.uuid)))

theorem mem_localCarriers {l : List Made} {files : Dict String RevFile} (hn : Named files) {tag : String} {r : Rev} :
    r ∈ localCarriers l files tag ↔ onDisk files r.uuid = some r ∧ r.server = "" ∧ tag ∈ r.tags ∧ r.uuid ∈ l.map (fun x => x.pass.uuid) := by
  unfold localCarriers
  rw [List.mem_filter, decide_eq_true_eq, mem_connected hn]

theorem localCarriers_nodup (l : List Made) (files : Dict String RevFile) (tag : String) :
    ((localCarriers l files tag).map Rev.uuid).Nodup :=
  (Repo.scan_nodup ⟨files, [], []⟩).sublist (List.filter_sublist.map _)

theorem PassesWith.named {sch : Schedule} {spread late long : Int} {start files : Dict String RevFile} {l : List Made}
    (hs : GoodSchedule sch) (h : PassesWith sch spread late long start l files) : Named files := by
  cases h with
  | nil hn => exact hn
  | exchange _ _ _ _ h => exact h.named
  | cons x l _ mid pulled _ _ _ _ h =>
    rw [h.expires]
    exact expired_named hs x.pass h.pulls.named

/-- **C87** The same for jobs that exchange metadata with other servers: however often a job has run, it has at most `3 * keep + 2` of its own
revisions with a tag of the schedule. -/
theorem C87_tag_bounded_with_peers (sch : Schedule) (m spread late long : Int) (hs : GoodSchedule sch) (hp : Proper sch m)
    (start files : Dict String RevFile) (l : List Made) (h : PassesWith sch spread late long start l files)
    (tag : String) (a : TagSpec) (ha : (tag, a) ∈ sch) (hlate : late < a.interval) :
    (localCarriers l files tag).length ≤ 3 * a.keep + 2 := by
  obtain ⟨i, hi, hai⟩ := hp.whole _ ha
  have hinv := h.inv hs ha hi hai
  have hd : 0 < a.interval := by
    have : a.interval = seconds i := hai
    rw [this]; unfold seconds; omega
  induction h with
  | nil hn => simp [localCarriers]
  | exchange l files files' h0 hsl ih =>
    have hn := h0.named hs
    have ih := ih (h0.inv hs ha hi hai)
    have hsub : (localCarriers l files' tag).map Rev.uuid ⊆ (localCarriers l files tag).map Rev.uuid := by
      intro u hu
      obtain ⟨r, hr, rfl⟩ := List.mem_map.1 hu
      obtain ⟨r1, r2, r3⟩ := (mem_localCarriers hsl.named).1 hr
      exact List.mem_map.2 ⟨r, (mem_localCarriers hn).2 ⟨(hsl.same _ _ r2).2 r1, r2, r3⟩, rfl⟩
    have hlen := (List.subperm_of_subset (localCarriers_nodup l files' tag) hsub).length_le
    simp only [List.length_map] at hlen
    omega
  | cons x l before mid pulled files h0 fresh soon hm _ =>
    have hpn := hm.pulls.named
    have hhi : ∀ y ∈ x :: l, y.pass.start ≤ x.pass.expiry tag := by
      intro y hy
      have h1 := hm.inTime.ends.1
      have h2 := hm.inTime.ends.2.2 tag
      rcases List.mem_cons.1 hy with rfl | hy
      · omega
      · have := (List.pairwise_cons.1 hinv.order).1 y hy
        omega
    have hwin := runs_in_window hinv.spaced hd hlate a.keep (x.pass.expiry tag) hhi
    rw [← List.length_map (f := Rev.uuid)]
    have hsub : (localCarriers (x :: l) files tag).map Rev.uuid ⊆
        ((carriers (connected pulled).history tag).reverse.take a.keep).map Rev.uuid ++
        ((x :: l).filter (fun y => decide (tag ∈ y.tags ∧ x.pass.expiry tag - a.keep * a.interval ≤ y.pass.start))).map
          (fun y => y.pass.uuid) := by
      intro u hu
      obtain ⟨r, hr, rfl⟩ := List.mem_map.1 hu
      obtain ⟨hr4, hr0, hr2, hr3⟩ := (mem_localCarriers hinv.named).1 hr
      have hr5 := hr4
      rw [hm.expires, expired_spec hs x.pass hpn] at hr5
      obtain ⟨r0, h1, h2, _⟩ := hr5
      have hk : tag ∈ keptTags sch x.pass.expiry (connected pulled).history r0 := by rw [h2] at hr2; exact hr2
      have hu0 : r0.uuid = r.uuid := onDisk_uuid hpn h1
      rw [List.mem_append]
      by_cases hn : AmongNewest (connected pulled).history tag a.keep r0
      · exact .inl (List.mem_map.2 ⟨r0, hn, hu0⟩)
      · right
        obtain ⟨y, y1, y2, y3, y4⟩ := hinv.own r.uuid r hr4 hr0 hr3 hr2
        refine List.mem_map.2 ⟨y, List.mem_filter.2 ⟨y1, ?_⟩, y2⟩
        rw [decide_eq_true_eq]
        refine ⟨y4, ?_⟩
        by_contra hc
        refine not_due_of_kept hk ⟨a, ha, hn, ?_⟩
        have : r0.ts = r.ts := by rw [h2]
        omega
    have hlen := (List.subperm_of_subset (localCarriers_nodup (x :: l) files tag) hsub).length_le
    simp only [List.length_append, List.length_map] at hlen ⊢
    have := List.length_take_le a.keep (carriers (connected pulled).history tag).reverse
    omega

/-- If the directory was empty at first, all local revisions are made by the runs, have tags, and those are tags of the schedule. -/
theorem PassesWith.all_own {sch : Schedule} (hs : GoodSchedule sch) {spread late long : Int} {start files : Dict String RevFile} {l : List Made}
    (h : PassesWith sch spread late long start l files) (hempty : ∀ u r, onDisk start u = some r → r.server ≠ "") (u : String) (r : Rev)
    (hr : onDisk files u = some r) (hl : r.server = "") :
    u ∈ l.map (fun x => x.pass.uuid) ∧ r.tags ≠ ∅ ∧ ∀ t ∈ r.tags, t ∈ sch.keys := by
  induction h generalizing u r with
  | nil _ => exact absurd hl (hempty u r hr)
  | exchange _ _ _ _ h ih => exact ih u r ((h.same _ _ hl).2 hr) hl
  | cons x l before mid pulled after h0 fresh soon hm ih =>
    have hpn := hm.pulls.named
    have hclock := hm.inTime.clock
    obtain ⟨_, c2, _, _⟩ := C25_missed_tags_are_caught_up sch x.pass.plan spread (connected before) x.pass.nowM x.pass.now1 x.pass.now2
      x.time x.tags (fun e he => (hm.era e he).trans hclock.1) ⟨hclock.2.2.1, hclock.2.2.2.1⟩ hm.planned
    rw [hm.expires, expired_spec hs x.pass hpn] at hr
    obtain ⟨r0, h1, rfl, h3⟩ := hr
    have hl0 : r0.server = "" := hl
    have h1 := (hm.pulls.same _ _ hl0).2 h1
    have key : u ∈ (x :: l).map (fun x => x.pass.uuid) ∧ ∀ t ∈ r0.tags, t ∈ sch.keys := by
      by_cases hux : u = x.pass.uuid
      · obtain ⟨n, n1, n2, n3, n4, n5⟩ := hm.backs.new
        rw [hux, n1] at h1
        cases h1
        refine ⟨by simp [hux], fun t ht => ?_⟩
        rw [n3] at ht
        rcases c2 t ht with ⟨spec, hm', _⟩ | ⟨spec, hm', _⟩
        · exact List.mem_map.2 ⟨_, hm', rfl⟩
        · exact List.mem_map.2 ⟨_, hm', rfl⟩
      · obtain ⟨b, b1, b2, b3⟩ := hm.backs.only u r0 h1 hl0 hux
        have hbu : b.uuid = u := onDisk_uuid (h0.named hs) b1
        obtain ⟨r', k1, k2, k3, k4⟩ := hm.backs.kept b (by rw [hbu]; exact b1) b2 b3 (by rw [hbu]; exact hux)
        rw [hbu, h1] at k1
        cases k1
        obtain ⟨i1, _, i4⟩ := ih u b b1 b3
        exact ⟨by simp only [List.map_cons, List.mem_cons]; exact .inr i1, by rw [k3]; exact i4⟩
    exact ⟨key.1, fun h0 => h3 ⟨h0, hl0⟩, fun t ht => key.2 t (keptTags_sub r0 ht)⟩

/-- **C87** The same for jobs that exchange metadata with other servers: a job that starts without local revisions never has more of them after a
run than the sum of `3 * keep + 2` over the tags of its schedule. -/
theorem C87_bounded_with_peers (sch : Schedule) (m spread late long : Int) (hs : GoodSchedule sch) (hp : Proper sch m) (hlate : late < m)
    (start files : Dict String RevFile) (l : List Made) (h : PassesWith sch spread late long start l files)
    (hempty : ∀ u r, onDisk start u = some r → r.server ≠ "") :
    ((connected files).history.filter (fun r => decide (r.server = ""))).length ≤ (sch.map (fun e => 3 * e.2.keep + 2)).sum := by
  have hn := h.named hs
  have hnd : (((connected files).history.filter (fun r => decide (r.server = ""))).map Rev.uuid).Nodup :=
    (Repo.scan_nodup ⟨files, [], []⟩).sublist (List.filter_sublist.map _)
  have hsub : ((connected files).history.filter (fun r => decide (r.server = ""))).map Rev.uuid ⊆
      sch.flatMap (fun e => (localCarriers l files e.1).map Rev.uuid) := by
    intro u hu
    obtain ⟨r, hr, rfl⟩ := List.mem_map.1 hu
    rw [List.mem_filter, decide_eq_true_eq, mem_connected hn] at hr
    obtain ⟨h1, h2, h3⟩ := h.all_own hs hempty r.uuid r hr.1 hr.2
    obtain ⟨t, ht⟩ := Finset.nonempty_iff_ne_empty.2 h2
    obtain ⟨e, he, rfl⟩ := List.mem_map.1 (h3 t ht)
    exact List.mem_flatMap.2 ⟨e, he, List.mem_map.2 ⟨r, (mem_localCarriers hn).2 ⟨hr.1, hr.2, ht, h1⟩, rfl⟩⟩
  have hlen := (List.subperm_of_subset hnd hsub).length_le
  rw [List.length_map, List.length_flatMap] at hlen
  refine hlen.trans (List.sum_le_sum ?_)
  intro e he
  rw [List.length_map]
  exact C87_tag_bounded_with_peers sch m spread late long hs hp start files l h e.1 e.2 he (lt_of_lt_of_le hlate (hp.least e he))

theorem planned_soon_with {sch : Schedule} {m spread late long t : Int} {tags : Finset String} (hp : Proper sch m) {p : Pass}
    {before mid pulled after : Dict String RevFile} (hm : p.MakesWith sch spread late long t tags before mid pulled after) :
    t ≤ p.plan + m + seconds 1 := by
  have hclock := hm.inTime.clock
  obtain ⟨_, _, h4, _⟩ := C25_missed_tags_are_caught_up sch p.plan spread (connected before) p.nowM p.now1 p.now2
    t tags (fun e he => (hm.era e he).trans hclock.1) ⟨hclock.2.2.1, hclock.2.2.2.1⟩ hm.planned
  have hmin := hp.min
  simp only [List.mem_map] at hmin
  obtain ⟨e, he, rfl⟩ := hmin
  obtain ⟨i, hi, hei⟩ := hp.whole e he
  have h5 := h4 e.1 e.2 he
  have h6 := C24_within_interval p.plan i spread hi (by rw [← hei]; exact hm.era e he) hm.inTime.real
  rw [hei] at h5 ⊢
  have := hm.inTime.real
  unfold seconds at *
  omega

/-- **C85** The same for jobs that exchange metadata with other servers: from the backup `q` until the end of the next backup `p` (whose run is
planned after the expiry of `q` and at most `long` after the beginning of its backup) the SLA is held, whatever is known of other servers. -/
theorem C85_sla_held_with_peers (sch : Schedule) (m spread late long : Int) (hs : GoodSchedule sch) (hp : Proper sch m)
    (hfit : 2 * (late + 2 * long + seconds 1) ≤ m) (before before' mid' pulled' after' mid pulled after : Dict String RevFile) (q p : Made)
    (hq : q.pass.MakesWith sch spread late long q.time q.tags before' mid' pulled' after')
    (hm : p.pass.MakesWith sch spread late long p.time p.tags before mid pulled after)
    (soon : p.pass.plan ≤ q.pass.start + long ∧ ∀ tag, q.pass.expiry tag ≤ p.pass.plan)
    (now : Int) (hnow : now ≤ p.pass.done) (view : Dict String RevFile) (hv : q.pass.VisibleWith sch mid' pulled' view) :
    (connected view).slaOverdue sch now = .ok 0 := by
  have p4 := planned_soon_with hp hm
  have b1 := hm.inTime.begins
  have b2 := hm.inTime.ends.1
  have b3 := hm.inTime.ends.2.1
  have hpos : 0 < m := by
    obtain ⟨e, he, hee⟩ := List.mem_map.1 hp.min
    obtain ⟨i, hi, hei⟩ := hp.whole e he
    have : e.2.interval = m := hee
    unfold seconds at hei
    omega
  obtain ⟨tag, a, ha, htag⟩ := planned_tag hq.planned
  obtain ⟨x, x1, x2, x3, x4, x5⟩ := hq.backs.new
  have hxu : x.uuid = q.pass.uuid := onDisk_uuid hq.backs.named x1
  have hx : onDisk mid' x.uuid = some x := by rw [hxu]; exact x1
  have hage : q.pass.expiry tag - a.keep * a.interval ≤ x.ts := by
    have hk : (1 : Int) ≤ a.keep := by
      have : 0 < a.keep := hs.keep _ ha
      omega
    have h1 := hp.least _ ha
    have h1 : m ≤ a.interval := h1
    have h2 := Int.mul_le_mul_of_nonneg_right hk (show 0 ≤ a.interval by omega)
    have h3 := soon.1
    have h4 := soon.2 tag
    unfold seconds at *
    omega
  obtain ⟨r, r1, r2, r3⟩ : ∃ r, onDisk view r.uuid = some r ∧ r.clean = true ∧ r.ts = q.pass.start := by
    obtain ⟨v, hv1, hv2⟩ := hv
    rcases hv1 with rfl | hv1
    · exact ⟨x, (hv2.same _ _ x5).1 hx, x4, x2⟩
    · obtain ⟨T, t1, _, _, _⟩ := survives_young hs q.pass hq.pulls.named hv1 ha ((hq.pulls.same _ _ x5).1 hx) (by rw [x3]; exact htag) hage
      exact ⟨x.withTags T, (hv2.same _ _ (show (x.withTags T).server = "" from x5)).1 t1, x4, x2⟩
  have hvn : Named view := by
    obtain ⟨v, _, hv2⟩ := hv
    exact hv2.named
  refine C30_on_time_is_held (connected view) sch now m (r.ts + m) r (Repo.scan_sorted ⟨view, [], []⟩) hp.min hp.least hpos
    ((mem_connected hvn r).2 r1) r2 le_rfl ?_
  have h1 := soon.1
  unfold seconds at *
  omega

/-! ## Pulls and pushes of `Model/Sync.lean` are such exchanges -/

section
open Verif.Sync

theorem foldl_drop_all {P : Rev → Prop} {l : List Rev} {s : Repo} (hn : Named s.files) (h : ∀ u r, onDisk s.files u = some r → P r) :
    Named (l.foldl (fun s r => s.remove r true) s).files ∧
    ∀ u r, onDisk (l.foldl (fun s r => s.remove r true) s).files u = some r → P r := by
  obtain ⟨h1, _, h3⟩ := foldl_drop l s hn
  refine ⟨h1, fun u r hr => ?_⟩
  rw [h3] at hr
  split at hr
  · cases hr
  · exact h u r hr

theorem writeRemote_all {P : Rev → Prop} (same : Rev → Rev → Bool) (ids : List String) : ∀ (l : List Rev) (s : Repo), (∀ r ∈ l, P r) →
    Named s.files → (∀ u r, onDisk s.files u = some r → P r) →
    Named (writeRemote same ids l s).2.files ∧ ∀ u r, onDisk (writeRemote same ids l s).2.files u = some r → P r
  | [], s, _, hn, h => ⟨hn, h⟩
  | r :: rest, s, hl, hn, h => by
    have hrest : ∀ x ∈ rest, P x := fun x hx => hl x (by simp [hx])
    have a1 := writeRemote_all same ids rest s hrest hn h
    have a2 := writeRemote_all same ids rest (s.writeInfo r) hrest (hn.set r) (by
      intro u x hx
      have hx : onDisk (s.files.set r.uuid ⟨false, r⟩) u = some x := hx
      rw [onDisk_set] at hx
      split at hx
      · cases hx; exact hl r (by simp)
      · exact h u x hx)
    simp only [writeRemote]
    split
    · split
      · exact ⟨hn, h⟩
      · split
        · exact a1
        · exact a2
    · exact a2

theorem pullSingle_all {P : Rev → Prop} (same : Rev → Rev → Bool) (peer : String) (a : Sync.Answer) (s : Repo)
    (ha : ∀ L, a = .revs L → ∀ r ∈ L, P r) (hn : Named s.files) (h : ∀ u r, onDisk s.files u = some r → P r) :
    Named (pullSingle same peer a s).2.files ∧ ∀ u r, onDisk (pullSingle same peer a s).2.files u = some r → P r := by
  unfold pullSingle
  split
  · exact ⟨hn, h⟩
  cases hra : a.revsAndError with
  | none => exact ⟨hn, h⟩
  | some p =>
    obtain ⟨L, err⟩ := p
    have hL : ∀ r ∈ L, P r := by
      cases a with
      | revs l => cases hra; exact ha _ rfl
      | status c => cases hra; intro r hr; cases hr
      | connection => cases hra
      | client => cases hra; intro r hr; cases hr
      | raised => cases hra
    obtain ⟨d1, d2⟩ := foldl_drop_all (P := P)
      (l := s.history.filter (fun r => decide (r.server = peer) && !(L.any (fun x => x.uuid = r.uuid)))) hn h
    have hw := writeRemote_all (P := P) same ((s.history.filter (fun r => decide (r.server = peer))).map Rev.uuid) L
      (dropUnknown peer L s) hL d1 d2
    simp only []
    generalize hg : writeRemote same ((s.history.filter (fun r => decide (r.server = peer))).map Rev.uuid) L (dropUnknown peer L s) = g at *
    obtain ⟨g1, g2⟩ := g
    cases g1 <;> exact hw

theorem pullPeers_all {P : Rev → Prop} (same : Rev → Rev → Bool) : ∀ (answers : List (String × Sync.Answer)) (s : Repo),
    (∀ p L, (p, Sync.Answer.revs L) ∈ answers → ∀ r ∈ L, P r) → Named s.files → (∀ u r, onDisk s.files u = some r → P r) →
    Named (pullPeers same answers s).2.files ∧ ∀ u r, onDisk (pullPeers same answers s).2.files u = some r → P r
  | [], s, _, hn, h => ⟨hn, h⟩
  | (p, a) :: rest, s, ha, hn, h => by
    have h1 := pullSingle_all (P := P) same p a s (fun L hL => ha p L (by simp [hL])) hn h
    have ih := pullPeers_all (P := P) same rest (pullSingle same p a s).2 (fun p' L hL => ha p' L (by simp [hL])) h1.1 h1.2
    simp only [pullPeers]
    generalize hg : pullSingle same p a s = g at *
    obtain ⟨g1, g2⟩ := g
    cases g1 with
    | error e => exact h1
    | ok b =>
      simp only [] at ih ⊢
      generalize hg' : pullPeers same rest g2 = g' at *
      obtain ⟨g1', g2'⟩ := g'
      cases g1' <;> exact ih

/-- A pull does not change the local revisions (unless a peer reports the id of one of them, `C49_false_same_id`): the revisions the client
makes of an answer have the name of the peer as their server (`adopt`), and a peer has a name. -/
theorem pull_sameLocal (same : Rev → Rev → Bool) (answers : List (String × Sync.Answer)) (files : Dict String RevFile) (hn : Named files)
    (hne : "" ∉ answers.map Prod.fst) (hadopt : ∀ p L, (p, Sync.Answer.revs L) ∈ answers → ∀ x ∈ L, x.server = p)
    (hids : ∀ p L, (p, Sync.Answer.revs L) ∈ answers → ∀ x ∈ L, ∀ r, onDisk files x.uuid = some r → r.server ≠ "") :
    SameLocal files (pull same answers (connected files)).2.files := by
  obtain ⟨d1, d2⟩ := foldl_drop_all (P := fun r => r.server = "" → onDisk files r.uuid = some r) (s := connected files)
    (l := (connected files).history.filter (fun r => decide (r.server ≠ "") && !((answers.map Prod.fst).contains r.server))) hn
    (fun u r hr _ => by rw [onDisk_uuid hn hr]; exact hr)
  obtain ⟨p1, p2⟩ := pullPeers_all (P := fun r => r.server = "" → onDisk files r.uuid = some r) same answers
    (removeDeadPeers (answers.map Prod.fst) (connected files)) (by
      intro p L hL r hr hl
      exact absurd (by rw [← hl, hadopt p L hL r hr]; exact List.mem_map.2 ⟨_, hL, rfl⟩) hne) d1 d2
  refine ⟨p1, fun u r hl => ⟨fun hr => ?_, fun hr => ?_⟩⟩
  · refine C49_local_untouched_partial same answers ⟨files, [], []⟩ hn hne u r hr hl (fun p L hL x hx hxu => ?_)
    exact hids p L hL x hx r (by rw [hxu]; exact hr) hl
  · have hu := onDisk_uuid p1 hr
    have := p2 u r hr hl
    rw [hu] at this
    exact this

theorem pushOne_local (pd : String → Option Int) (token name : String) (net : Net) (r : Rev) (p : Push) (hl : r.server ≠ "")
    (hr : ∀ x, onDisk p.s.files r.uuid = some x → x.server ≠ "") (hn : Named p.s.files) :
    SameLocal p.s.files (pushOne pd token name net r p).s.files := by
  unfold pushOne
  split
  · split
    · have hd : (p.s.remove r true).files = p.s.files.erase r.uuid := by rw [remove_force]; rfl
      show SameLocal p.s.files (p.s.remove r true).files
      rw [hd]
      refine ⟨hn.erase _, fun u x hx => ?_⟩
      rw [onDisk_erase]
      split
      · rename_i h
        refine ⟨fun hd => absurd hx (hr x (by rw [← h]; exact hd)), fun h => by cases h⟩
      · exact Iff.rfl
    · show SameLocal p.s.files (p.s.files.set r.uuid ⟨false, { r with origTags := r.tags }⟩)
      refine ⟨hn.set { r with origTags := r.tags }, fun u x hx => ?_⟩
      rw [onDisk_set (r := { r with origTags := r.tags })]
      split
      · rename_i h
        refine ⟨fun hd => absurd hx (hr x (by rw [← h]; exact hd)), fun h => by cases h; exact absurd hx hl⟩
      · exact Iff.rfl
  · exact SameLocal.refl hn

theorem SameLocal.trans {a b c : Dict String RevFile} (h : SameLocal a b) (h' : SameLocal b c) : SameLocal a c :=
  ⟨h'.named, fun u r hr => (h.same u r hr).trans (h'.same u r hr)⟩

theorem pushLoop_local (pd : String → Option Int) (token name : String) (net : Nat → Net) : ∀ (l : List Rev) (i : Nat) (p : Push),
    (∀ r ∈ l, r.server ≠ "" ∧ ∀ x, onDisk p.s.files r.uuid = some x → x.server ≠ "") → Named p.s.files →
    SameLocal p.s.files (pushLoop pd token name net i l p).s.files
  | [], _, p, _, hn => SameLocal.refl hn
  | r :: rest, i, p, h, hn => by
    have h1 := pushOne_local pd token name (net i) r p (h r (by simp)).1 (h r (by simp)).2 hn
    refine h1.trans (pushLoop_local pd token name net rest (i + 1) (pushOne pd token name (net i) r p) ?_ h1.named)
    intro r' hr'
    obtain ⟨h2, h3⟩ := h r' (by simp [hr'])
    exact ⟨h2, fun x hx hxl => h3 x ((h1.same _ _ hxl).2 hx) hxl⟩

/-- A push to a peer does not change the local revisions. -/
theorem push_sameLocal (pd : String → Option Int) (peer token name : String) (net : Nat → Net) (s : Repo) (srv : Api.Server)
    (hs : Verif.Repo.Sync s) (hp : peer ≠ "") : SameLocal s.files (push pd peer token name net s srv).s.files := by
  have e1 : (push pd peer token name net s srv).s = _ := (pushPurge_repo pd token name _ _ name "").1
  rw [e1]
  refine pushLoop_local pd token name net (pendingFor peer s) 0 ⟨s, srv, false, false⟩ ?_ hs.named
  intro r hr
  unfold pendingFor Repo.cleanHistory Repo.getHistory at hr
  simp only [List.mem_filter, Bool.and_eq_true, decide_eq_true_eq] at hr
  have hrp : r.server = peer := hr.2.2
  refine ⟨by rw [hrp]; exact hp, fun x hx => ?_⟩
  have := (hs.mem r).1 hr.1.1
  rw [hx] at this
  cases this
  rw [hrp]; exact hp

end

/-! ## A concrete job -/

/-- A newer revision of another server. -/
def exRemote : Rev := { mkRev "r" (seconds (100 * DAY + 90)) {"daily"} with origTags := {"daily"}, server := "peer" }

/-- The directory after the first backup and a pull ... -/
def exPulled1 : Dict String RevFile := exMid1 ++ [("r", ⟨false, exRemote⟩)]

theorem exPulled1_named : Named exPulled1 := by
  refine ⟨by decide, ?_⟩
  intro n f hm _
  simp only [exPulled1, exMid1, List.cons_append, List.nil_append, List.mem_cons, Prod.mk.injEq, List.not_mem_nil, or_false] at hm
  rcases hm with ⟨rfl, rfl⟩ | ⟨rfl, rfl⟩ <;> rfl

/-- ... which is what a pull makes of it. -/
theorem exPull1 : SameLocal exMid1 exPulled1 := by
  have h : exPulled1 = (Sync.pull Sync.sameRev [("peer", .revs [exRemote])] (connected exMid1)).2.files := by decide +kernel
  rw [h]
  refine pull_sameLocal Sync.sameRev [("peer", .revs [exRemote])] exMid1 exMid1_named (by decide) ?_ ?_
  · intro p L hL x hx
    simp only [List.mem_cons, Prod.mk.injEq, Sync.Answer.revs.injEq, List.not_mem_nil, or_false] at hL
    obtain ⟨rfl, rfl⟩ := hL
    simp only [List.mem_cons, List.not_mem_nil, or_false] at hx
    subst hx; rfl
  · intro p L hL x hx r hr
    simp only [List.mem_cons, Prod.mk.injEq, Sync.Answer.revs.injEq, List.not_mem_nil, or_false] at hL
    obtain ⟨rfl, rfl⟩ := hL
    simp only [List.mem_cons, List.not_mem_nil, or_false] at hx
    subst hx
    have : onDisk exMid1 exRemote.uuid = none := by decide +kernel
    rw [this] at hr; cases hr

theorem exQ_makesWith : exQ.MakesWith exSchedule 0 (seconds 60) (seconds 1000) (seconds (100 * DAY)) {"daily", "weekly"} [] exMid1 exPulled1
    exPulled1 :=
  ⟨exQ_makes.era, exQ_makes.fresh, exQ_makes.planned, exQ_makes.inTime, exQ_makes.backs.toLocal ⟨by decide, by simp⟩, exPull1,
    by decide +kernel⟩

/-- The revision of the other server vanishes again before the next backup. -/
theorem exGone1 : SameLocal exPulled1 exMid1 := ⟨exMid1_named, fun u r hl => (exPull1.same u r hl).symm⟩

theorem exP_makesWith : exP.MakesWith exSchedule 0 (seconds 60) (seconds 1000) (seconds (101 * DAY)) {"daily"} exMid1 exMid2 exMid2 exMid2 :=
  ⟨exP_makes.era, exP_makes.fresh, exP_makes.planned, exP_makes.inTime, exP_makes.backs.toLocal exMid1_named, SameLocal.refl exMid2_named,
    exP_makes.expires⟩

theorem exPassesWith : PassesWith exSchedule 0 (seconds 60) (seconds 1000) []
    [⟨exP, seconds (101 * DAY), {"daily"}⟩, ⟨exQ, seconds (100 * DAY), {"daily", "weekly"}⟩] exMid2 :=
  .cons _ _ exMid1 exMid2 exMid2 exMid2
    (.exchange _ exPulled1 exMid1 (.cons _ _ [] exMid1 exPulled1 exPulled1 (.nil ⟨by decide, by simp⟩) (by simp) (by simp) exQ_makesWith) exGone1)
    (by decide) (by intro q hq; cases hq; exact ⟨by decide, fun _ => (by show seconds _ ≤ seconds _; decide)⟩) exP_makesWith

/-- Tests (C85, C87, C130). -/
example : (connected exPulled1).slaOverdue exSchedule (seconds (101 * DAY + 660)) = .ok 0 :=
  C85_sla_held_with_peers exSchedule (seconds DAY) 0 (seconds 60) (seconds 1000) exSchedule_good exSchedule_proper (by decide) exMid1 [] exMid1
    exPulled1 exPulled1 exMid2 exMid2 exMid2 ⟨exQ, _, _⟩ ⟨exP, _, _⟩ exQ_makesWith exP_makesWith
    ⟨by decide, fun _ => (by show seconds _ ≤ seconds _; decide)⟩ _ (by decide) exPulled1
    ⟨exPulled1, .inr (.inl rfl), SameLocal.refl exPulled1_named⟩

example := C87_tag_bounded_with_peers exSchedule (seconds DAY) 0 (seconds 60) (seconds 1000) exSchedule_good exSchedule_proper [] exMid2 _
  exPassesWith "daily" ⟨seconds DAY, 2⟩ (by decide +kernel) (by decide +kernel)

example := C87_bounded_with_peers exSchedule (seconds DAY) 0 (seconds 60) (seconds 1000) exSchedule_good exSchedule_proper (by decide) [] exMid2 _
  exPassesWith (fun u r h => by cases h)

example := C130_apart_with_peers exSchedule (seconds DAY) 0 (seconds 60) (seconds 1000) exSchedule_good exSchedule_proper [] exMid2 _ exPassesWith

example := C130_tag_window_with_peers exSchedule (seconds DAY) 0 (seconds 60) (seconds 1000) exSchedule_good exSchedule_proper [] exMid2 _
  exPassesWith "daily" ⟨seconds DAY, 2⟩ (by decide +kernel) (by decide +kernel) 1 (seconds (100 * DAY))

example := C130_window_with_peers exSchedule (seconds DAY) 0 (seconds 60) (seconds 1000) exSchedule_good exSchedule_proper (by decide) [] exMid2 _
  exPassesWith (seconds (100 * DAY)) 86400000000

end Verif.Timeline
