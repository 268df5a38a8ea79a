import Verif.Props.Timeline
/-!
# C87: the directory of a job does not grow without bound
-/
namespace Verif.Timeline
open Verif Verif.Repo Verif.Repo.Spec Verif.Backup

/-- The run is a regular slot of the tag. -/
def Made.slot (x : Made) (spread : Int) (a : TagSpec) : Bool := decide (nextInInterval x.pass.plan a.interval spread = x.time)

/-- Of two runs with the tag, newest first: if the newer one is not a regular slot, its revision is at least an interval newer;
if both are, their slots are at least an interval apart. -/
def Apart (spread : Int) (tag : String) (a : TagSpec) (y x : Made) : Prop :=
  tag ∈ y.tags → tag ∈ x.tags →
    (y.slot spread a = false → x.pass.start + a.interval ≤ y.pass.start) ∧
    (y.slot spread a = true → x.slot spread a = true → x.time + a.interval ≤ y.time)

/-- What holds for the runs so far and the directory. -/
structure Inv (spread : Int) (tag : String) (a : TagSpec) (late : Int) (l : List Made) (files : Dict String RevFile) : Prop where
  named : Named files
  carrier : ∀ x ∈ l, tag ∈ x.tags → ∃ r, onDisk files r.uuid = some r ∧ r.clean = true ∧ tag ∈ r.tags ∧ x.pass.start ≤ r.ts
  own : ∀ u r, onDisk files u = some r → u ∈ l.map (fun x => x.pass.uuid) → tag ∈ r.tags →
    ∃ x ∈ l, x.pass.uuid = u ∧ r.ts = x.pass.start ∧ tag ∈ x.tags
  apart : l.Pairwise (Apart spread tag a)
  order : l.Pairwise (fun y x => x.pass.start ≤ y.pass.plan ∧ x.pass.start ≤ y.pass.start)
  before : ∀ x ∈ l, x.time ≤ x.pass.start ∧ x.pass.start ≤ x.time + late ∧ x.pass.start ≤ x.pass.done

/-- What the counts below need: the runs are apart, and none begins more than `late` after its time. -/
structure Spaced (spread : Int) (tag : String) (a : TagSpec) (late : Int) (l : List Made) : Prop where
  apart : l.Pairwise (Apart spread tag a)
  before : ∀ x ∈ l, x.time ≤ x.pass.start ∧ x.pass.start ≤ x.time + late ∧ x.pass.start ≤ x.pass.done

theorem Inv.spaced {spread : Int} {tag : String} {a : TagSpec} {late : Int} {l : List Made} {files : Dict String RevFile}
    (h : Inv spread tag a late l files) : Spaced spread tag a late l := ⟨h.apart, h.before⟩

/-- Two different slots are at least an interval apart. -/
theorem slots_apart {i spread s t : Int} (hi : 0 < i) (hs : IsSlot i spread s) (ht : IsSlot i spread t) (h : s < t) : s + i ≤ t := by
  unfold IsSlot at *
  obtain ⟨j, hj⟩ := Int.dvd_of_emod_eq_zero hs
  obtain ⟨k, hk⟩ := Int.dvd_of_emod_eq_zero ht
  have h1 : i * j < i * k := by omega
  have h2 : j < k := lt_of_mul_lt_mul_left h1 hi.le
  have h3 : i * (j + 1) ≤ i * k := Int.mul_le_mul_of_nonneg_left (by omega) hi.le
  have h4 : i * (j + 1) = i * j + i := by ring
  omega

theorem expired_spec {sch : Schedule} (hs : GoodSchedule sch) (p : Pass) {mid : Dict String RevFile} (hn : Named mid) (u : String)
    (r' : Rev) : onDisk (p.expired sch mid) u = some r' ↔ ∃ r, onDisk mid u = some r ∧
      r' = { r with tags := keptTags sch p.expiry (connected mid).history r } ∧
      ¬ (keptTags sch p.expiry (connected mid).history r = ∅ ∧ r.server = "") :=
  (C27_expiry_exact sch hs p.expiry p.pd (connected mid) hn rfl).1 u r'

theorem Passes.inv {sch : Schedule} (hs : GoodSchedule sch) {spread late long : Int} {start files : Dict String RevFile} {l : List Made}
    (h : Passes sch spread late long start l files) {tag : String} {a : TagSpec} (ha : (tag, a) ∈ sch) {i : Int} (hi : 0 < i)
    (hai : a.interval = seconds i) : Inv spread tag a late l files := by
  induction h with
  | nil hn => exact ⟨hn, by simp, by simp, .nil, .nil, by simp⟩
  | cons x l before mid after h0 fresh soon hm ih =>
    have hin := hm.inTime
    have hclock := hin.clock
    have hbn := hm.backs.named
    obtain ⟨c1, c2, _, _⟩ := C25_missed_tags_are_caught_up sch x.pass.plan spread (connected before) x.pass.nowM x.pass.now1 x.pass.now2
      x.time x.tags (fun e he => (hm.era e he).trans hclock.1) ⟨hclock.2.2.1, hclock.2.2.2.1⟩ hm.planned
    -- all earlier runs were done before this one was planned
    have hord : ∀ y ∈ l, y.pass.start ≤ x.pass.plan := by
      intro y hy
      cases l with
      | nil => simp at hy
      | cons z l =>
        have hz := (soon z rfl).1
        have hzb := ih.before z (by simp)
        rcases List.mem_cons.1 hy with rfl | hy
        · omega
        · have := (List.pairwise_cons.1 ih.order).1 y hy
          omega
    refine ⟨?_, ?_, ?_, ?_, ?_, ?_⟩
    · rw [hm.expires]; exact expired_named hs x.pass hbn
    · -- carriers
      have key : ∀ r, onDisk mid r.uuid = some r → tag ∈ r.tags → ∀ t, t ≤ r.ts →
          ∃ r', onDisk after r'.uuid = some r' ∧ r'.clean = true ∧ tag ∈ r'.tags ∧ t ≤ r'.ts := by
        intro r hr ht t hle
        obtain ⟨r', r1, r2, r3, _, r0, s1, s2, _⟩ := survives hs x.pass hbn (visible_expired sch x.pass mid) ha hr ht
        refine ⟨r', by rw [hm.expires]; exact r1, ?_, r2, by omega⟩
        show r'.stats.has "duration" = true
        rw [s2]; exact hm.backs.complete _ _ s1
      intro y hy hty
      rcases List.mem_cons.1 hy with rfl | hy
      · obtain ⟨n, n1, n2, n3, _⟩ := hm.backs.new
        exact key n (by rw [onDisk_uuid hbn n1]; exact n1) (by rw [n3]; exact hty) _ (by omega)
      · obtain ⟨r, r1, r2, r3, r4⟩ := ih.carrier y hy hty
        have hne : r.uuid ≠ x.pass.uuid := by
          intro h; rw [h, hm.fresh] at r1; cases r1
        obtain ⟨r', k1, k2, k3, _⟩ := hm.backs.kept r r1 r2 hne
        exact key r' (by rw [onDisk_uuid hbn k1]; exact k1) (by rw [k3]; exact r3) _ (by omega)
    · -- own revisions
      intro u r hr hu ht
      rw [hm.expires, expired_spec hs x.pass hbn] at hr
      obtain ⟨r0, h1, rfl, _⟩ := hr
      have ht0 : tag ∈ r0.tags := keptTags_sub r0 ht
      by_cases hux : u = x.pass.uuid
      · obtain ⟨n, n1, n2, n3, _⟩ := hm.backs.new
        rw [hux, n1] at h1
        cases h1
        exact ⟨x, by simp, hux.symm, n2, by rw [← n3]; exact ht0⟩
      · have hul : u ∈ l.map (fun x => x.pass.uuid) := by
          simp only [List.map_cons, List.mem_cons] at hu
          exact hu.resolve_left hux
        obtain ⟨b, b1, b2⟩ := hm.backs.only u r0 h1 hux
        have hbu : b.uuid = u := onDisk_uuid ih.named b1
        obtain ⟨r', k1, k2, k3, _⟩ := hm.backs.kept b (by rw [hbu]; exact b1) b2 (by rw [hbu]; exact hux)
        rw [hbu, h1] at k1
        cases k1
        obtain ⟨y, y1, y2, y3, y4⟩ := ih.own u b b1 hul (by rw [← k3]; exact ht0)
        exact ⟨y, by simp [y1], y2, by rw [← y3]; exact k2, y4⟩
    · refine List.pairwise_cons.2 ⟨?_, ih.apart⟩
      intro y hy htx hty
      have hord' := hord y hy
      constructor
      · intro hslot
        have hmiss : Missed sch (connected before) x.pass.nowM tag := by
          rcases c2 tag htx with h | ⟨spec, h1, h2⟩
          · exact h
          · have : spec = a := by
              have e1 := Dict.get?_of_mem hs.nodup ha
              have e2 := Dict.get?_of_mem hs.nodup h1
              rw [e1] at e2; cases e2; rfl
            subst this
            simp [Made.slot, h2] at hslot
        obtain ⟨spec, h1, h2⟩ := hmiss
        have : spec = a := by
          have e1 := Dict.get?_of_mem hs.nodup ha
          have e2 := Dict.get?_of_mem hs.nodup h1
          rw [e1] at e2; cases e2; rfl
        subst this
        obtain ⟨r, r1, r2, r3, r4⟩ := ih.carrier y hy hty
        have := h2 r ((mem_connected ih.named r).2 r1) r2 r3
        omega
      · intro h1 h2
        simp only [Made.slot, decide_eq_true_eq] at h1 h2
        have hx := C24_next_slot x.pass.plan i spread hi (by rw [← hai]; exact hm.era _ ha) hin.real
        rw [← hai, h1] at hx
        have hyslot : IsSlot a.interval (seconds spread) y.time := by
          have : ∀ {l files}, Passes sch spread late long start l files → ∀ y ∈ l, y.slot spread a = true →
              IsSlot a.interval (seconds spread) y.time := by
            intro l files h
            induction h with
            | nil _ => simp
            | cons z l _ _ _ _ _ _ hz ih =>
              intro y hy hsl
              rcases List.mem_cons.1 hy with rfl | hy
              · simp only [Made.slot, decide_eq_true_eq] at hsl
                have := (C24_next_slot y.pass.plan i spread hi (by rw [← hai]; exact hz.era _ ha) hz.inTime.real).1
                rw [← hai, hsl] at this
                exact this
              · exact ih y hy hsl
          exact this h0 y hy (by simp [Made.slot, h2])
        have hb := ih.before y hy
        exact slots_apart (by rw [hai]; unfold seconds; omega) hyslot hx.1 (by omega)
    · refine List.pairwise_cons.2 ⟨?_, ih.order⟩
      intro y hy
      have := hord y hy
      omega
    · intro y hy
      rcases List.mem_cons.1 hy with rfl | hy
      · exact ⟨hin.begins.1, hin.begins.2, hin.ends.1⟩
      · exact ih.before y hy

/-- Numbers that are at least `d` apart in an interval of length `w`. -/
theorem length_apart {d : Int} (hd : 0 < d) : ∀ (l : List Int) (lo hi : Int), l.Pairwise (fun a b => b + d ≤ a) →
    (∀ x ∈ l, lo ≤ x ∧ x ≤ hi) → l ≠ [] → (l.length - 1 : Int) * d ≤ hi - lo
  | [], _, _, _, _, h => absurd rfl h
  | [x], lo, hi, _, hb, _ => by
    have := hb x (by simp)
    simp only [List.length_cons, List.length_nil]
    omega
  | x :: y :: l, lo, hi, hp, hb, _ => by
    obtain ⟨h1, h2⟩ := List.pairwise_cons.1 hp
    have hxy := h1 y (by simp)
    have ih := length_apart hd (y :: l) lo (hi - d) h2 (fun z hz => by
      have := hb z (by simp [hz])
      have := h1 z hz
      have := hb x (by simp)
      omega) (by simp)
    simp only [List.length_cons] at *
    push_cast at *
    have e : ((l.length : Int) + 1 + 1 - 1) * d = ((l.length : Int) + 1 - 1) * d + d := by ring
    omega

theorem length_apart' {d : Int} (hd : 0 < d) (l : List Int) (lo hi : Int) (n : Nat) (hp : l.Pairwise (fun a b => b + d ≤ a))
    (hb : ∀ x ∈ l, lo ≤ x ∧ x ≤ hi) (hn : hi - lo < (n + 1) * d) : l.length ≤ n + 1 := by
  cases l with
  | nil => simp
  | cons x l =>
    have := length_apart hd (x :: l) lo hi hp hb (by simp)
    by_contra hc
    have h1 : ((n : Int) + 1) ≤ ((x :: l).length : Int) - 1 := by omega
    have h2 := Int.mul_le_mul_of_nonneg_right h1 hd.le
    omega

/-- The number of runs with the tag whose revision starts in a window of `n` intervals. -/
theorem runs_in_window {spread late : Int} {tag : String} {a : TagSpec} {l : List Made}
    (h : Spaced spread tag a late l) (hd : 0 < a.interval) (hlate : late < a.interval) (n : Nat) (hi : Int) 
    (hhi : ∀ x ∈ l, x.pass.start ≤ hi) :
    (l.filter (fun x => decide (tag ∈ x.tags ∧ hi - n * a.interval ≤ x.pass.start))).length ≤ 2 * n + 2 := by
  have hsplit := List.length_eq_length_filter_add (l := l.filter (fun x => decide (tag ∈ x.tags ∧ hi - n * a.interval ≤ x.pass.start)))
    (fun x => x.slot spread a)
  rw [hsplit]
  have key : ∀ x, x ∈ l.filter (fun x => decide (tag ∈ x.tags ∧ hi - n * a.interval ≤ x.pass.start)) →
      x ∈ l ∧ tag ∈ x.tags ∧ hi - n * a.interval ≤ x.pass.start := by
    intro x hx
    rw [List.mem_filter, decide_eq_true_eq] at hx
    exact hx
  have h1 : ((l.filter (fun x => decide (tag ∈ x.tags ∧ hi - n * a.interval ≤ x.pass.start))).filter (fun x => x.slot spread a)).length
      ≤ n + 1 := by
    rw [← List.length_map (f := fun x : Made => x.time)]
    refine length_apart' hd _ (hi - n * a.interval - late) hi n ?_ ?_ ?_
    · rw [List.pairwise_map]
      refine List.Pairwise.imp_of_mem ?_ ((h.apart.sublist List.filter_sublist).sublist List.filter_sublist)
      intro y x hy hx hap
      obtain ⟨hy1, hy2⟩ := List.mem_filter.1 hy
      obtain ⟨hx1, hx2⟩ := List.mem_filter.1 hx
      exact (hap (key y hy1).2.1 (key x hx1).2.1).2 hy2 hx2
    · intro t ht
      obtain ⟨x, hx, rfl⟩ := List.mem_map.1 ht
      obtain ⟨h1, _, h3⟩ := key x (List.mem_filter.1 hx).1
      have := h.before x h1
      have := hhi x h1
      omega
    · have e : ((n : Int) + 1) * a.interval = n * a.interval + a.interval := by ring
      omega
  have h2 : ((l.filter (fun x => decide (tag ∈ x.tags ∧ hi - n * a.interval ≤ x.pass.start))).filter (fun x => !x.slot spread a)).length
      ≤ n + 1 := by
    rw [← List.length_map (f := fun x : Made => x.pass.start)]
    refine length_apart' hd _ (hi - n * a.interval) hi n ?_ ?_ ?_
    · rw [List.pairwise_map]
      refine List.Pairwise.imp_of_mem ?_ ((h.apart.sublist List.filter_sublist).sublist List.filter_sublist)
      intro y x hy hx hap
      obtain ⟨hy1, hy2⟩ := List.mem_filter.1 hy
      obtain ⟨hx1, hx2⟩ := List.mem_filter.1 hx
      exact (hap (key y hy1).2.1 (key x hx1).2.1).1 (by simpa using hy2)
    · intro t ht
      obtain ⟨x, hx, rfl⟩ := List.mem_map.1 ht
      obtain ⟨h1, _, h3⟩ := key x (List.mem_filter.1 hx).1
      exact ⟨h3, hhi x h1⟩
    · have e : ((n : Int) + 1) * a.interval = n * a.interval + a.interval := by ring
      omega
  omega

/-- The revisions of the directory that these runs have made and that carry the tag. -/
def ownCarriers (l : List Made) (files : Dict String RevFile) (tag : String) : List Rev :=
  (connected files).history.filter (fun r => decide (tag ∈ r.tags ∧ r.uuid ∈ l.map (fun x => x.pass.uuid)))

/-- **C87** However often a job has run (in time, less than an interval late): after every run it has at most `3 * keep + 2` of its
revisions with a tag of the schedule. -/
theorem C87_tag_bounded (sch : Schedule) (m spread late long : Int) (hs : GoodSchedule sch) (hp : Proper sch m)
    (start files : Dict String RevFile) (l : List Made) (h : Passes sch spread late long start l files)
    (tag : String) (a : TagSpec) (ha : (tag, a) ∈ sch) (hlate : late < a.interval) :
    (ownCarriers l files tag).length ≤ 3 * a.keep + 2 := by
  obtain ⟨i, hi, hai⟩ := hp.whole _ ha
  have hinv := h.inv hs ha hi hai
  have hd : 0 < a.interval := by
    have : a.interval = seconds i := hai
    rw [this]; unfold seconds; omega
  cases h with
  | nil hn => simp [ownCarriers]
  | cons x l before mid after h0 fresh soon hm =>
    have hbn := hm.backs.named
    -- all runs are before this expiry
    have hhi : ∀ y ∈ x :: l, y.pass.start ≤ x.pass.expiry tag := by
      intro y hy
      have h1 := hm.inTime.ends.1
      have h2 := hm.inTime.ends.2.2 tag
      rcases List.mem_cons.1 hy with rfl | hy
      · omega
      · have := (List.pairwise_cons.1 hinv.order).1 y hy
        omega
    have hwin := runs_in_window hinv.spaced hd hlate a.keep (x.pass.expiry tag) hhi
    -- the uuids
    rw [← List.length_map (f := Rev.uuid)]
    have hsub : (ownCarriers (x :: l) files tag).map Rev.uuid ⊆
        ((carriers (connected mid).history tag).reverse.take a.keep).map Rev.uuid ++
        ((x :: l).filter (fun y => decide (tag ∈ y.tags ∧ x.pass.expiry tag - a.keep * a.interval ≤ y.pass.start))).map
          (fun y => y.pass.uuid) := by
      intro u hu
      obtain ⟨r, hr, rfl⟩ := List.mem_map.1 hu
      unfold ownCarriers at hr
      rw [List.mem_filter, decide_eq_true_eq] at hr
      obtain ⟨hr1, hr2, hr3⟩ := hr
      have hr4 := (mem_connected hinv.named r).1 hr1
      have hr5 := hr4
      rw [hm.expires, expired_spec hs x.pass hbn] at hr5
      obtain ⟨r0, h1, h2, _⟩ := hr5
      have hk : tag ∈ keptTags sch x.pass.expiry (connected mid).history r0 := by rw [h2] at hr2; exact hr2
      have hu0 : r0.uuid = r.uuid := onDisk_uuid hbn h1
      rw [List.mem_append]
      by_cases hn : AmongNewest (connected mid).history tag a.keep r0
      · exact .inl (List.mem_map.2 ⟨r0, hn, hu0⟩)
      · right
        obtain ⟨y, y1, y2, y3, y4⟩ := hinv.own r.uuid r hr4 hr3 hr2
        refine List.mem_map.2 ⟨y, List.mem_filter.2 ⟨y1, ?_⟩, y2⟩
        rw [decide_eq_true_eq]
        refine ⟨y4, ?_⟩
        by_contra hc
        refine not_due_of_kept hk ⟨a, ha, hn, ?_⟩
        have : r0.ts = r.ts := by rw [h2]
        omega
    have hnd : ((ownCarriers (x :: l) files tag).map Rev.uuid).Nodup :=
      (Repo.scan_nodup ⟨files, [], []⟩).sublist (List.filter_sublist.map _)
    have hlen := (List.subperm_of_subset hnd hsub).length_le
    simp only [List.length_append, List.length_map] at hlen ⊢
    have := List.length_take_le a.keep (carriers (connected mid).history tag).reverse
    omega

/-- What holds if the directory was empty at first: all revisions are made by the runs, have tags, and those are tags of the schedule. -/
theorem Passes.all_own {sch : Schedule} (hs : GoodSchedule sch) {spread late long : Int} {start files : Dict String RevFile} {l : List Made}
    (h : Passes sch spread late long start l files) (hempty : ∀ u, onDisk start u = none) (u : String) (r : Rev)
    (hr : onDisk files u = some r) :
    u ∈ l.map (fun x => x.pass.uuid) ∧ r.server = "" ∧ r.tags ≠ ∅ ∧ ∀ t ∈ r.tags, t ∈ sch.keys := by
  induction h generalizing u r with
  | nil _ => rw [hempty] at hr; cases hr
  | cons x l before mid after h0 fresh soon hm ih =>
    have hbn := hm.backs.named
    have hclock := hm.inTime.clock
    obtain ⟨_, c2, _, _⟩ := C25_missed_tags_are_caught_up sch x.pass.plan spread (connected before) x.pass.nowM x.pass.now1 x.pass.now2
      x.time x.tags (fun e he => (hm.era e he).trans hclock.1) ⟨hclock.2.2.1, hclock.2.2.2.1⟩ hm.planned
    rw [hm.expires, expired_spec hs x.pass hbn] at hr
    obtain ⟨r0, h1, rfl, h3⟩ := hr
    have key : u ∈ (x :: l).map (fun x => x.pass.uuid) ∧ r0.server = "" ∧ ∀ t ∈ r0.tags, t ∈ sch.keys := by
      by_cases hux : u = x.pass.uuid
      · obtain ⟨n, n1, n2, n3, n4, n5⟩ := hm.backs.new
        rw [hux, n1] at h1
        cases h1
        refine ⟨by simp [hux], n5, fun t ht => ?_⟩
        rw [n3] at ht
        rcases c2 t ht with ⟨spec, hm', _⟩ | ⟨spec, hm', _⟩
        · exact List.mem_map.2 ⟨_, hm', rfl⟩
        · exact List.mem_map.2 ⟨_, hm', rfl⟩
      · obtain ⟨b, b1, b2⟩ := hm.backs.only u r0 h1 hux
        have hbu : b.uuid = u := onDisk_uuid (h0.named hs) b1
        obtain ⟨r', k1, k2, k3, k4⟩ := hm.backs.kept b (by rw [hbu]; exact b1) b2 (by rw [hbu]; exact hux)
        rw [hbu, h1] at k1
        cases k1
        obtain ⟨i1, i2, _, i4⟩ := ih u b b1
        exact ⟨by simp only [List.map_cons, List.mem_cons]; exact .inr i1, by rw [k4]; exact i2, by rw [k3]; exact i4⟩
    refine ⟨key.1, key.2.1, fun h0 => h3 ⟨h0, key.2.1⟩, fun t ht => key.2.2 t (keptTags_sub r0 ht)⟩

/-- **C87** A job that starts with an empty directory never has more revisions after a run than the sum of `3 * keep + 2` over the tags
of its schedule, however often it runs. -/
theorem C87_bounded (sch : Schedule) (m spread late long : Int) (hs : GoodSchedule sch) (hp : Proper sch m) (hlate : late < m)
    (start files : Dict String RevFile) (l : List Made) (h : Passes sch spread late long start l files)
    (hempty : ∀ u, onDisk start u = none) :
    (connected files).history.length ≤ (sch.map (fun e => 3 * e.2.keep + 2)).sum := by
  have hn := h.named hs
  have hnd : ((connected files).history.map Rev.uuid).Nodup := Repo.scan_nodup ⟨files, [], []⟩
  have hsub : (connected files).history.map Rev.uuid ⊆ sch.flatMap (fun e => (ownCarriers l files e.1).map Rev.uuid) := by
    intro u hu
    obtain ⟨r, hr, rfl⟩ := List.mem_map.1 hu
    obtain ⟨h1, _, h2, h3⟩ := h.all_own hs hempty r.uuid r ((mem_connected hn r).1 hr)
    obtain ⟨t, ht⟩ := Finset.nonempty_iff_ne_empty.2 h2
    obtain ⟨e, he, rfl⟩ := List.mem_map.1 (h3 t ht)
    refine List.mem_flatMap.2 ⟨e, he, List.mem_map.2 ⟨r, ?_, rfl⟩⟩
    unfold ownCarriers
    rw [List.mem_filter, decide_eq_true_eq]
    exact ⟨hr, ht, h1⟩
  have hlen := (List.subperm_of_subset hnd hsub).length_le
  rw [List.length_map, List.length_flatMap] at hlen
  refine hlen.trans (List.sum_le_sum ?_)
  intro e he
  rw [List.length_map]
  exact C87_tag_bounded sch m spread late long hs hp start files l h e.1 e.2 he (lt_of_lt_of_le hlate (hp.least e he))

/-- Test (C87): two runs. -/
example : (connected exMid2).history.length = 2 ∧ (exSchedule.map (fun e => 3 * e.2.keep + 2)).sum = 13 := by decide +kernel

example : (connected exMid2).history.length ≤ (exSchedule.map (fun e => 3 * e.2.keep + 2)).sum :=
  C87_bounded exSchedule (seconds DAY) 0 (seconds 60) (seconds 1000) exSchedule_good exSchedule_proper (by decide) [] exMid2 _ exPasses
    (fun _ => rfl)

example := C87_tag_bounded exSchedule (seconds DAY) 0 (seconds 60) (seconds 1000) exSchedule_good exSchedule_proper [] exMid2 _ exPasses "daily"
  ⟨seconds DAY, 2⟩ (by decide +kernel) (by decide +kernel)

end Verif.Timeline
