import Verif.Model.Report
import Verif.Proofs.ListLemmas
/-!
# C59: problem reports are kept; deleting them never works
-/
namespace Verif.Report
open Verif Verif.Repo

/-- Every block is stored under its hash. -/
def Hashed (md5 : Bytes → String) (chunks : Dict String Bytes) : Prop := ∀ h c, chunks.get? h = some c → md5 c = h

theorem has_iff {V : Type} (d : Dict String V) (k : String) : d.has k = true ↔ ∃ v, d.get? k = some v := by
  unfold Dict.has
  cases d.get? k <;> simp

theorem storeChunk_spec (md5 : Bytes → String) (c : Bytes) (q : Quarantine) (hh : Hashed md5 q.chunks) :
    Hashed md5 (storeChunk c (md5 c) q).chunks ∧ (storeChunk c (md5 c) q).reports = q.reports ∧ (storeChunk c (md5 c) q).ids = q.ids ∧
    (∀ h b, q.chunks.get? h = some b → (storeChunk c (md5 c) q).chunks.get? h = some b) ∧
    (∃ b, (storeChunk c (md5 c) q).chunks.get? (md5 c) = some b) := by
  unfold storeChunk
  by_cases h : q.chunks.has (md5 c) = true
  · rw [if_pos h]
    exact ⟨hh, rfl, rfl, fun _ _ h => h, (has_iff _ _).1 h⟩
  · rw [if_neg h]
    refine ⟨?_, rfl, rfl, ?_, ⟨c, Dict.get?_set_self _ _ _⟩⟩
    · intro k b hb
      have hb : (q.chunks.set (md5 c) c).get? k = some b := hb
      rw [Dict.get?_set] at hb
      split at hb
      · rename_i e; cases hb; exact e.symm
      · exact hh k b hb
    · intro k b hb
      show (q.chunks.set (md5 c) c).get? k = some b
      rw [Dict.get?_set]
      split
      · rename_i e; subst e; exact absurd ((has_iff _ _).2 ⟨b, hb⟩) h
      · exact hb

/-- What is in the directory stays there unchanged. -/
structure Keeps (q q' : Quarantine) : Prop where
  reports : ∀ n r, q.reports.get? n = some r → q'.reports.get? n = some r
  chunks : ∀ h b, q.chunks.get? h = some b → q'.chunks.get? h = some b

theorem Keeps.trans {a b c : Quarantine} (h : Keeps a b) (h' : Keeps b c) : Keeps a c :=
  ⟨fun n r hr => h'.reports n r (h.reports n r hr), fun n r hr => h'.chunks n r (h.chunks n r hr)⟩

theorem addReport_spec (md5 : Bytes → String) (m : Mismatch) (q : Quarantine) (hh : Hashed md5 q.chunks) :
    Hashed md5 (addReport md5 m q).chunks ∧ Keeps q (addReport md5 m q) ∧
    (∃ b, (addReport md5 m q).chunks.get? (md5 m.source) = some b) ∧
    (∃ b, (addReport md5 m q).chunks.get? (md5 m.target) = some b) ∧
    (∃ r, (addReport md5 m q).reports.get? (m.uuid ++ ".report") = some r) ∧
    (q.reports.get? (m.uuid ++ ".report") = none →
      (addReport md5 m q).reports.get? (m.uuid ++ ".report") = some ⟨m.uuid, m.timestamp, md5 m.source, md5 m.target, m.offset⟩) ∧
    (∀ n, n ≠ m.uuid ++ ".report" → (addReport md5 m q).reports.get? n = q.reports.get? n) ∧
    (addReport md5 m q).ids = q.ids ++ [m.uuid] := by
  obtain ⟨a1, a2, a3, a4, a5⟩ := storeChunk_spec md5 m.source q hh
  obtain ⟨b1, b2, b3, b4, b5⟩ := storeChunk_spec md5 m.target _ a1
  unfold addReport store
  generalize hx : storeChunk m.target (md5 m.target) (storeChunk m.source (md5 m.source) q) = x at *
  rw [a2] at b2
  rw [a3] at b3
  have hsrc : ∃ b, x.chunks.get? (md5 m.source) = some b := by
    obtain ⟨b, hb⟩ := a5; exact ⟨b, b4 _ _ hb⟩
  unfold storeReport
  by_cases hr : x.reports.has (m.uuid ++ ".report") = true
  · simp only [if_pos hr]
    refine ⟨b1, ⟨fun n r h => by rw [b2]; exact h, fun h b hb => b4 h b (a4 h b hb)⟩, hsrc, b5, (has_iff _ _).1 hr, ?_, fun n _ => by rw [b2],
      by rw [b3]⟩
    intro hn
    rw [b2, has_iff, hn] at hr; obtain ⟨_, h⟩ := hr; cases h
  · simp only [if_neg hr]
    refine ⟨b1, ⟨fun n r h => ?_, fun h b hb => b4 h b (a4 h b hb)⟩, hsrc, b5, ⟨_, Dict.get?_set_self _ _ _⟩,
      fun _ => Dict.get?_set_self _ _ _, fun n hn => by rw [Dict.get?_set_ne _ _ hn, b2], by rw [b3]⟩
    rw [Dict.get?_set]
    split
    · rename_i e; subst e; rw [b2, has_iff] at hr; exact absurd ⟨r, h⟩ hr
    · rw [b2]; exact h

theorem report_inj {a b : String} (h : a ++ ".report" = b ++ ".report") : a = b := by
  have := congrArg String.toList h
  rw [String.toList_append, String.toList_append] at this
  exact String.toList_inj.1 (List.append_cancel_right this)

/-- **C59 (partial)** After any sequence of mismatches with distinct new ids, each has its report, which names the hashes of the two blocks
and the offset, and both blocks are stored unmodified under these hashes (if MD5 has no collision among the blocks involved); all
reports and blocks that were there before are unchanged.  Missing: deletion, see `C59_false_delete`. -/
theorem C59_reports_kept_partial (md5 : Bytes → String) (ms : List Mismatch) (q : Quarantine) (hh : Hashed md5 q.chunks)
    (hids : (ms.map Mismatch.uuid).Nodup) (hnew : ∀ m ∈ ms, q.reports.get? (m.uuid ++ ".report") = none) :
    (∀ m ∈ ms, (ms.foldl (fun q m => addReport md5 m q) q).reports.get? (m.uuid ++ ".report") =
        some ⟨m.uuid, m.timestamp, md5 m.source, md5 m.target, m.offset⟩ ∧
      m.uuid ∈ (ms.foldl (fun q m => addReport md5 m q) q).ids ∧
      ∀ block ∈ [m.source, m.target],
        (∀ h b, (ms.foldl (fun q m => addReport md5 m q) q).chunks.get? h = some b → md5 b = md5 block → b = block) →
        (ms.foldl (fun q m => addReport md5 m q) q).chunks.get? (md5 block) = some block) ∧
    Keeps q (ms.foldl (fun q m => addReport md5 m q) q) ∧
    (∀ n, (∀ m ∈ ms, n ≠ m.uuid ++ ".report") → (ms.foldl (fun q m => addReport md5 m q) q).reports.get? n = q.reports.get? n) := by
  have key : ∀ (ms : List Mismatch) (q : Quarantine), Hashed md5 q.chunks → (ms.map Mismatch.uuid).Nodup →
      (∀ m ∈ ms, q.reports.get? (m.uuid ++ ".report") = none) →
      (∀ m ∈ ms, (ms.foldl (fun q m => addReport md5 m q) q).reports.get? (m.uuid ++ ".report") =
          some ⟨m.uuid, m.timestamp, md5 m.source, md5 m.target, m.offset⟩ ∧
        m.uuid ∈ (ms.foldl (fun q m => addReport md5 m q) q).ids ∧
        ∀ block ∈ [m.source, m.target], ∃ b, (ms.foldl (fun q m => addReport md5 m q) q).chunks.get? (md5 block) = some b) ∧
      Keeps q (ms.foldl (fun q m => addReport md5 m q) q) ∧ Hashed md5 (ms.foldl (fun q m => addReport md5 m q) q).chunks ∧
      (∀ i ∈ q.ids, i ∈ (ms.foldl (fun q m => addReport md5 m q) q).ids) ∧
      (∀ n, (∀ m ∈ ms, n ≠ m.uuid ++ ".report") → (ms.foldl (fun q m => addReport md5 m q) q).reports.get? n = q.reports.get? n) := by
    intro ms
    induction ms with
    | nil => intro q hq _ _; exact ⟨by simp, ⟨fun _ _ h => h, fun _ _ h => h⟩, hq, fun _ h => h, fun _ _ => rfl⟩
    | cons m rest ih =>
      intro q hq hn hnew
      rw [List.map_cons, List.nodup_cons] at hn
      obtain ⟨c1, c2, c3, c4, c5, c6, c7, c8⟩ := addReport_spec md5 m q hq
      have hne : ∀ x ∈ rest, x.uuid ++ ".report" ≠ m.uuid ++ ".report" := by
        intro x hx e
        exact hn.1 (List.mem_map.2 ⟨x, hx, report_inj e⟩)
      obtain ⟨d1, d2, d3, d4, d5⟩ := ih (addReport md5 m q) c1 hn.2 (fun x hx => by rw [c7 _ (hne x hx)]; exact hnew x (by simp [hx]))
      simp only [List.foldl_cons]
      refine ⟨?_, c2.trans d2, d3, fun i hi => d4 i (by rw [c8]; simp [hi]), ?_⟩
      · intro x hx
        rcases List.mem_cons.1 hx with rfl | hx
        · refine ⟨d2.reports _ _ (c6 (hnew x (by simp))), d4 _ (by rw [c8]; simp), ?_⟩
          intro block hb
          simp only [List.mem_cons, List.not_mem_nil, or_false] at hb
          rcases hb with rfl | rfl
          · obtain ⟨b, hb⟩ := c3; exact ⟨b, d2.chunks _ _ hb⟩
          · obtain ⟨b, hb⟩ := c4; exact ⟨b, d2.chunks _ _ hb⟩
        · exact d1 x hx
      · intro n hn'
        rw [d5 n (fun x hx => hn' x (by simp [hx])), c7 n (hn' m (by simp))]
  obtain ⟨d1, d2, d3, _, d5⟩ := key ms q hh hids hnew
  refine ⟨?_, d2, d5⟩
  intro m hm
  obtain ⟨e1, e2, e3⟩ := d1 m hm
  refine ⟨e1, e2, ?_⟩
  intro block hb hcoll
  obtain ⟨b, hb⟩ := e3 block hb
  rw [hcoll _ b hb (d3 _ b hb)] at hb
  exact hb

theorem withSuffix_plain {id : String} (hne : id ≠ "") (hd : '.' ∉ id.toList) : withSuffix id ".report" = .ok (id ++ ".report") := by
  unfold withSuffix
  rw [if_neg (by decide +kernel), if_neg hne]
  have : suffixLength id.toList = 0 := by
    unfold suffixLength
    have : id.toList.reverse.idxOf? '.' = none := by
      rw [List.idxOf?_eq_none_iff]; simpa using hd
    rw [this]
  rw [this, Nat.sub_zero, List.take_length, String.ofList_toList]

/-- **C59 (partial)** Showing a report by its id (ids have no dots) gives the stored report. -/
theorem C59_show_partial (q : Quarantine) (id : String) (r : Report) (hne : id ≠ "") (hd : '.' ∉ id.toList)
    (hr : q.reports.get? (id ++ ".report") = some r) : reportsShow (some [id]) q = .ok [r] := by
  unfold reportsShow showLoop
  simp only [Option.getD_some, withSuffix_plain hne hd, hr, showLoop]

theorem removeSuffix_eq {n id : String} (h : ".report".toList.isSuffixOf n.toList = true) :
    removeSuffix n = id ↔ n = id ++ ".report" := by
  unfold removeSuffix
  rw [if_pos h]
  obtain ⟨t, ht⟩ := List.isSuffixOf_iff_suffix.1 h
  have hlen : n.toList.take (n.toList.length - 7) = t := by
    rw [← ht, List.length_append, show ".report".toList.length = 7 from rfl, Nat.add_sub_cancel, List.take_left]
  rw [hlen]
  constructor
  · intro e
    apply String.toList_inj.1
    rw [String.toList_append, ← e, String.toList_ofList, ht]
  · intro e
    have := congrArg String.toList e
    rw [String.toList_append, ← ht] at this
    rw [List.append_cancel_right this, String.ofList_toList]

/-- **C59 (partial)** The list of reports read from the directory is exact, ... -/
theorem C59_listed_partial (q : Quarantine) (id : String) :
    id ∈ (scanReports q).ids ↔ ∃ r, q.reports.get? (id ++ ".report") = some r := by
  have hk : (∃ r, q.reports.get? (id ++ ".report") = some r) ↔ id ++ ".report" ∈ q.reports.keys := by
    rw [Dict.mem_keys_iff, Option.isSome_iff_exists]
  rw [hk]
  simp only [scanReports, List.mem_map, List.mem_filter]
  constructor
  · rintro ⟨n, ⟨h1, h2⟩, h3⟩
    rw [(removeSuffix_eq h2).1 h3] at h1
    exact h1
  · intro h
    have hs : ".report".toList.isSuffixOf (id ++ ".report").toList = true := by
      rw [List.isSuffixOf_iff_suffix, String.toList_append]; exact List.suffix_append _ _
    exact ⟨_, ⟨h, hs⟩, (removeSuffix_eq hs).2 rfl⟩

theorem showLoop_all {q : Quarantine} : ∀ {ids : List String}, (∀ id ∈ ids, id ≠ "" ∧ '.' ∉ id.toList) →
    (∀ id ∈ ids, ∃ r, q.reports.get? (id ++ ".report") = some r) →
    ∃ l, showLoop ids q = .ok l ∧ ∀ id ∈ ids, ∃ r ∈ l, q.reports.get? (id ++ ".report") = some r
  | [], _, _ => ⟨[], rfl, by simp⟩
  | id :: rest, hd, hr => by
    obtain ⟨r, h1⟩ := hr id (by simp)
    obtain ⟨l, h2, h3⟩ := showLoop_all (ids := rest) (fun i hi => hd i (by simp [hi])) (fun i hi => hr i (by simp [hi]))
    refine ⟨r :: l, ?_, ?_⟩
    · unfold showLoop
      simp only [withSuffix_plain (hd id (by simp)).1 (hd id (by simp)).2, h1, h2]
    · intro i hi
      rcases List.mem_cons.1 hi with rfl | hi
      · exact ⟨r, by simp, h1⟩
      · obtain ⟨x, hx, e⟩ := h3 i hi
        exact ⟨x, by simp [hx], e⟩

/-- **C59 (partial)** ... and showing all reports shows every one of them. -/
theorem C59_show_all_partial (q : Quarantine) (hd : ∀ id ∈ (scanReports q).ids, id ≠ "" ∧ '.' ∉ id.toList) :
    ∃ l, reportsShow none (scanReports q) = .ok l ∧ ∀ id r, q.reports.get? (id ++ ".report") = some r → r ∈ l := by
  obtain ⟨l, h1, h2⟩ := showLoop_all (q := scanReports q) hd (fun id hid => (C59_listed_partial q id).1 hid)
  refine ⟨l, h1, ?_⟩
  intro id r hr
  obtain ⟨r', hm, hr'⟩ := h2 id ((C59_listed_partial q id).2 ⟨r, hr⟩)
  have hr' : q.reports.get? (id ++ ".report") = some r' := hr'
  rw [hr] at hr'
  cases hr'
  exact hm

/-- **C59 is false of the code**: deleting any reports, or all of them, fails and deletes nothing. -/
theorem C59_false_delete (reports : Option (List String)) (q : Quarantine) (hne : reports.getD q.ids ≠ []) :
    reportsDelete reports q = (.error .value, q) := by
  unfold reportsDelete
  cases hl : reports.getD q.ids with
  | nil => exact absurd hl hne
  | cons id rest =>
    have : withSuffix id "report" = .error .value := by
      unfold withSuffix; rw [if_pos (by decide +kernel)]
    simp only [deleteLoop, this]

/-- A sum as hash, for the example. -/
def exMd5 (b : Bytes) : String := if b = [1] then "h1" else if b = [2] then "h2" else if b = [3] then "h3" else "h"

/-- Two mismatches with a common block. -/
def exMs : List Mismatch := [⟨"a", 1, [1], [2], 0⟩, ⟨"b", 2, [1], [3], 8⟩]

/-- The hypotheses are met. -/
example : Hashed exMd5 [] ∧ (exMs.map Mismatch.uuid).Nodup ∧
    (exMs.foldl (fun q m => addReport exMd5 m q) ⟨[], [], []⟩) =
      ⟨[("a.report", ⟨"a", 1, "h1", "h2", 0⟩), ("b.report", ⟨"b", 2, "h1", "h3", 8⟩)], [("h1", [1]), ("h2", [2]), ("h3", [3])], ["a", "b"]⟩ := by
  refine ⟨(by intro h c hc; cases hc), by decide +kernel, by decide +kernel⟩
example : (scanReports (exMs.foldl (fun q m => addReport exMd5 m q) ⟨[], [], []⟩)).ids = ["a", "b"] ∧
    reportsShow none (exMs.foldl (fun q m => addReport exMd5 m q) ⟨[], [], []⟩) =
      .ok [⟨"a", 1, "h1", "h2", 0⟩, ⟨"b", 2, "h1", "h3", 8⟩] ∧
    (reportsDelete none (exMs.foldl (fun q m => addReport exMd5 m q) ⟨[], [], []⟩)).1 = .error .value := by decide +kernel

/-- C59_reports_kept_partial: two mismatches are added to an empty quarantine. -/
example := C59_reports_kept_partial exMd5 exMs ⟨[], [], []⟩ (by intro h c hc; cases hc) (by decide +kernel) (by intro m _; rfl)
example := C59_show_all_partial (exMs.foldl (fun q m => addReport exMd5 m q) ⟨[], [], []⟩) (by decide +kernel)
example := C59_show_partial (exMs.foldl (fun q m => addReport exMd5 m q) ⟨[], [], []⟩) "b" ⟨"b", 2, "h1", "h3", 8⟩ (by decide) (by decide) (by decide +kernel)
example := C59_false_delete none (exMs.foldl (fun q m => addReport exMd5 m q) ⟨[], [], []⟩) (by decide +kernel)

end Verif.Report
