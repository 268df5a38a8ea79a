import Verif.Props.Growth
/-!
# C130: a job does not make backups more often than scheduled
-/
namespace Verif.Timeline
open Verif Verif.Repo Verif.Repo.Spec Verif.Backup

/-- **C130** A later run `y` of a job gets a tag that an earlier run `x` got only if a whole interval of the tag has passed between the two
backups, or if `y` is for a regular slot of the tag that comes after the time `x` was for (and after its backup had begun). -/
theorem C130_apart (sch : Schedule) (m spread late long : Int) (hs : GoodSchedule sch) (hp : Proper sch m)
    (start files : Dict String RevFile) (l : List Made) (h : Passes sch spread late long start l files) :
    l.Pairwise (fun y x => ∀ tag a, (tag, a) ∈ sch → tag ∈ y.tags → tag ∈ x.tags →
      x.pass.start + a.interval ≤ y.pass.start ∨
      (IsSlot a.interval (seconds spread) y.time ∧ x.time < y.time ∧ x.pass.start < y.time)) := by
  have hord : l.Pairwise (fun y x => x.time ≤ x.pass.start ∧ x.pass.start ≤ y.pass.plan) := by
    cases l with
    | nil => exact .nil
    | cons z l' =>
      obtain ⟨e, he, _⟩ := List.mem_map.1 hp.min
      obtain ⟨i, hi, hei⟩ := hp.whole e he
      have hinv := h.inv hs (tag := e.1) (a := e.2) he hi hei
      exact hinv.order.imp_of_mem (fun _ hx hxy => ⟨(hinv.before _ hx).1, hxy.1⟩)
  have hslot : ∀ y ∈ l, ∀ tag a, (tag, a) ∈ sch → y.slot spread a = true →
      IsSlot a.interval (seconds spread) y.time ∧ y.pass.plan < y.time := by
    clear hord
    intro y hy tag a ha hsl
    obtain ⟨i, hi, hai⟩ := hp.whole _ ha
    have hai : a.interval = seconds i := hai
    induction h with
    | nil _ => simp at hy
    | cons z l _ _ _ _ _ _ hz ih =>
      rcases List.mem_cons.1 hy with rfl | hy
      · simp only [Made.slot, decide_eq_true_eq] at hsl
        have := C24_next_slot y.pass.plan i spread hi (by rw [← hai]; exact hz.era _ ha) hz.inTime.real
        rw [← hai, hsl] at this
        exact ⟨this.1, this.2.1⟩
      · exact ih hy
  rw [List.pairwise_iff_forall_sublist] at hord ⊢
  intro y x hyx tag a ha hty htx
  obtain ⟨o1, o2⟩ := hord hyx
  obtain ⟨i, hi, hai⟩ := hp.whole _ ha
  have hap := List.pairwise_iff_forall_sublist.1 (h.inv hs ha hi hai).apart hyx hty htx
  have hy : y ∈ l := hyx.subset (by simp)
  cases hsl : y.slot spread a with
  | false => exact .inl (hap.1 hsl)
  | true =>
    obtain ⟨s1, s2⟩ := hslot y hy tag a ha hsl
    exact .inr ⟨s1, by omega, by omega⟩

/-- The number of runs with the tag whose backups begin within `n` intervals. -/
theorem runs_in_any_window {spread late : Int} {tag : String} {a : TagSpec} {l : List Made}
    (h : Spaced spread tag a late l) (hd : 0 < a.interval) (hlate : late < a.interval) (n : Nat) (lo : Int) :
    (l.filter (fun x => decide (tag ∈ x.tags ∧ lo ≤ x.pass.start ∧ x.pass.start ≤ lo + n * a.interval))).length ≤ 2 * n + 2 := by
  generalize hL : l.filter (fun x => decide (tag ∈ x.tags ∧ lo ≤ x.pass.start ∧ x.pass.start ≤ lo + n * a.interval)) = L
  have key : ∀ x ∈ L, x ∈ l ∧ tag ∈ x.tags ∧ lo ≤ x.pass.start ∧ x.pass.start ≤ lo + n * a.interval := by
    intro x hx
    rw [← hL, List.mem_filter, decide_eq_true_eq] at hx
    exact hx
  have hap : L.Pairwise (Apart spread tag a) := by rw [← hL]; exact h.apart.sublist List.filter_sublist
  clear hL
  rw [List.length_eq_length_filter_add (l := L) (fun x => x.slot spread a)]
  have e : ((n : Int) + 1) * a.interval = n * a.interval + a.interval := by ring
  have h1 : (L.filter (fun x => x.slot spread a)).length ≤ n + 1 := by
    rw [← List.length_map (f := fun x : Made => x.time)]
    refine length_apart' hd _ (lo - late) (lo + n * a.interval) n ?_ ?_ ?_
    · rw [List.pairwise_map]
      refine List.Pairwise.imp_of_mem ?_ (hap.sublist List.filter_sublist)
      intro y x hy hx hap
      obtain ⟨hy1, hy2⟩ := List.mem_filter.1 hy
      obtain ⟨hx1, hx2⟩ := List.mem_filter.1 hx
      exact (hap (key y hy1).2.1 (key x hx1).2.1).2 hy2 hx2
    · intro t ht
      obtain ⟨x, hx, rfl⟩ := List.mem_map.1 ht
      obtain ⟨h1, _, h3, h4⟩ := key x (List.mem_filter.1 hx).1
      have := h.before x h1
      omega
    · omega
  have h2 : (L.filter (fun x => !x.slot spread a)).length ≤ n + 1 := by
    rw [← List.length_map (f := fun x : Made => x.pass.start)]
    refine length_apart' hd _ lo (lo + n * a.interval) n ?_ ?_ ?_
    · rw [List.pairwise_map]
      refine List.Pairwise.imp_of_mem ?_ (hap.sublist List.filter_sublist)
      intro y x hy hx hap
      obtain ⟨hy1, hy2⟩ := List.mem_filter.1 hy
      obtain ⟨hx1, hx2⟩ := List.mem_filter.1 hx
      exact (hap (key y hy1).2.1 (key x hx1).2.1).1 (by simpa using hy2)
    · intro t ht
      obtain ⟨x, hx, rfl⟩ := List.mem_map.1 ht
      exact (key x (List.mem_filter.1 hx).1).2.2
    · omega
  omega

/-- **C130** Within `n` intervals of a tag, whenever they begin, a job (whose backups begin less than an interval late) makes at most `2 * n + 2`
backups with the tag. -/
theorem C130_tag_window (sch : Schedule) (m spread late long : Int) (hs : GoodSchedule sch) (hp : Proper sch m)
    (start files : Dict String RevFile) (l : List Made) (h : Passes sch spread late long start l files)
    (tag : String) (a : TagSpec) (ha : (tag, a) ∈ sch) (hlate : late < a.interval) (n : Nat) (lo : Int) :
    (l.filter (fun x => decide (tag ∈ x.tags ∧ lo ≤ x.pass.start ∧ x.pass.start ≤ lo + n * a.interval))).length ≤ 2 * n + 2 := by
  obtain ⟨i, hi, hai⟩ := hp.whole _ ha
  have hai : a.interval = seconds i := hai
  exact runs_in_any_window (h.inv hs ha hi hai).spaced (by rw [hai]; unfold seconds; omega) hlate n lo

theorem sum_map_add (keys : List (String × TagSpec)) (f g : String × TagSpec → Nat) :
    (keys.map (fun k => f k + g k)).sum = (keys.map f).sum + (keys.map g).sum := by
  induction keys with
  | nil => rfl
  | cons k keys ih => simp only [List.map_cons, List.sum_cons, ih]; omega

/-- Counting by keys. -/
theorem length_le_sum (keys : List (String × TagSpec)) (p : String × TagSpec → Made → Bool) : ∀ l : List Made,
    (∀ x ∈ l, ∃ k ∈ keys, p k x = true) → l.length ≤ (keys.map (fun k => (l.filter (p k)).length)).sum
  | [], _ => by simp
  | x :: l, h => by
    have ih := length_le_sum keys p l (fun y hy => h y (by simp [hy]))
    have he : ∀ k : String × TagSpec, ((x :: l).filter (p k)).length = (l.filter (p k)).length + (p k x).toNat := by
      intro k
      rw [List.filter_cons]
      cases p k x <;> simp
    simp only [he, sum_map_add, List.length_cons]
    obtain ⟨k, hk, hkx⟩ := h x (by simp)
    have : 1 ≤ (keys.map (fun k => (p k x).toNat)).sum := by
      have hm : (p k x).toNat ∈ keys.map (fun k => (p k x).toNat) := List.mem_map.2 ⟨k, hk, rfl⟩
      have := List.le_sum_of_mem hm
      rw [hkx] at this
      exact this
    omega

theorem Passes.has_tag {sch : Schedule} {spread late long : Int} {start files : Dict String RevFile} {l : List Made}
    (h : Passes sch spread late long start l files) : ∀ x ∈ l, ∃ tag a, (tag, a) ∈ sch ∧ tag ∈ x.tags := by
  induction h with
  | nil _ => simp
  | cons z l _ _ _ _ _ _ hz ih =>
    intro x hx
    rcases List.mem_cons.1 hx with rfl | hx
    · exact planned_tag hz.planned
    · exact ih x hx

/-- The runs in a period of length `w`, if each has a tag and the runs with each tag are apart. -/
theorem runs_in_period {sch : Schedule} {m spread late : Int} (hp : Proper sch m) (hlate : late < m) {l : List Made}
    (htag : ∀ x ∈ l, ∃ tag a, (tag, a) ∈ sch ∧ tag ∈ x.tags)
    (h : ∀ tag a, (tag, a) ∈ sch → Spaced spread tag a late l) (lo : Int) (w : Nat) :
    (l.filter (fun x => decide (lo ≤ x.pass.start ∧ x.pass.start ≤ lo + w))).length ≤
      (sch.map (fun e => 2 * (w / e.2.interval.toNat) + 4)).sum := by
  generalize hL : l.filter (fun x => decide (lo ≤ x.pass.start ∧ x.pass.start ≤ lo + w)) = L
  have key : ∀ x ∈ L, ∃ k ∈ sch, decide (k.1 ∈ x.tags) = true := by
    intro x hx
    rw [← hL] at hx
    obtain ⟨tag, a, h1, h2⟩ := htag x (List.mem_of_mem_filter hx)
    exact ⟨(tag, a), h1, decide_eq_true h2⟩
  refine (length_le_sum sch (fun k x => decide (k.1 ∈ x.tags)) L key).trans (List.sum_le_sum ?_)
  intro e he
  obtain ⟨i, hi, hei⟩ := hp.whole e he
  have hpos : 0 < e.2.interval := by rw [hei]; unfold seconds; omega
  have hw := runs_in_any_window (h e.1 e.2 he) hpos (lt_of_lt_of_le hlate (hp.least e he)) (w / e.2.interval.toNat + 1) lo
  refine Nat.le_trans ?_ (hw.trans (by omega))
  rw [← hL, List.filter_filter]
  refine List.Sublist.length_le (List.monotone_filter_right l ?_)
  intro x hx
  rw [Bool.and_eq_true, decide_eq_true_eq, decide_eq_true_eq] at hx
  rw [decide_eq_true_eq]
  refine ⟨hx.1, hx.2.1, hx.2.2.trans ?_⟩
  have h1 := Nat.div_add_mod w e.2.interval.toNat
  have h2 := Nat.mod_lt w (show e.2.interval.toNat > 0 by omega)
  have h3 : (w : Int) ≤ ((w / e.2.interval.toNat + 1 : Nat) : Int) * (e.2.interval.toNat : Int) := by
    rw [← Int.natCast_mul]
    refine Int.ofNat_le.2 ?_
    rw [Nat.add_mul, Nat.one_mul, Nat.mul_comm]
    omega
  have h4 : (e.2.interval.toNat : Int) = e.2.interval := Int.toNat_of_nonneg hpos.le
  rw [h4] at h3
  omega

/-- **C130** In any period of length `w` a job (whose backups begin less than the shortest interval late) makes at most as many backups as the sum,
over the tags of its schedule, of twice the number of intervals in the period and four. -/
theorem C130_window (sch : Schedule) (m spread late long : Int) (hs : GoodSchedule sch) (hp : Proper sch m) (hlate : late < m)
    (start files : Dict String RevFile) (l : List Made) (h : Passes sch spread late long start l files) (lo : Int) (w : Nat) :
    (l.filter (fun x => decide (lo ≤ x.pass.start ∧ x.pass.start ≤ lo + w))).length ≤
      (sch.map (fun e => 2 * (w / e.2.interval.toNat) + 4)).sum := by
  refine runs_in_period (spread := spread) hp hlate h.has_tag (fun tag a ha => ?_) lo w
  obtain ⟨i, hi, hai⟩ := hp.whole _ ha
  exact (h.inv hs ha hi hai).spaced

/-- The hypotheses are met by two runs, one day apart. -/
example := C130_apart exSchedule (seconds DAY) 0 (seconds 60) (seconds 1000) exSchedule_good exSchedule_proper [] exMid2 _ exPasses

example := C130_tag_window exSchedule (seconds DAY) 0 (seconds 60) (seconds 1000) exSchedule_good exSchedule_proper [] exMid2 _ exPasses "daily"
  ⟨seconds DAY, 2⟩ (by decide +kernel) (by decide +kernel) 1 (seconds (100 * DAY))

example := C130_window exSchedule (seconds DAY) 0 (seconds 60) (seconds 1000) exSchedule_good exSchedule_proper (by decide) [] exMid2 _ exPasses
  (seconds (100 * DAY)) 86400000000

end Verif.Timeline
