import Verif.Props.BackupRuns
/-!
# Properties C15, C17, C18 and C19: distrust, snapshots, verification
-/
namespace Verif.Backup
open Verif Verif.Chunked Verif.Spec Verif.Rbd Verif.Repo Verif.Files Verif.Diff

/-! ### Specification -/

/-- The chunk can be read and its content has the recorded hash. -/
def Readable (env : Env) (w : World) (h : Hash) : Prop := ∃ d, w.chunks.get? h = some (some d) ∧ env.H d = h

/-- The image of the revision contains the chunk. -/
def Refers (w : World) (uuid : String) (h : Hash) : Prop :=
  ∃ m, w.metas.get? uuid = some (some m) ∧ h ∈ m.mapping.values

/-- A complete local revision that is marked as verified. -/
structure IsVerified (repo : Repo) (v : Rev) : Prop where
  mem : v ∈ repo.history
  loc : v.server = ""
  complete : v.clean = true
  trust : v.trust = .verified

/-! ### C19 -/

theorem firstBad_none_iff (env : Env) (w : World) (l : List Hash) :
    firstBad env w l = none ↔ ∀ h ∈ l, Readable env w h := by
  induction l with
  | nil => simp [firstBad]
  | cons h l ih =>
    simp only [firstBad, Chunk.new, Chunk.readExisting]
    cases hx : w.chunks.get? h with
    | none => simp [Readable, hx]
    | some y =>
      cases y with
      | none => simp [Readable, hx]
      | some d =>
        dsimp only
        by_cases he : env.H d = h
        · rw [if_pos he]
          dsimp only
          rw [ih]
          simp only [List.mem_cons, forall_eq_or_imp]
          constructor
          · intro ha; exact ⟨⟨d, hx, he⟩, ha⟩
          · intro ha; exact ha.2
        · rw [if_neg he]
          simp only [List.mem_cons, forall_eq_or_imp, reduceCtorEq, false_iff, not_and]
          rintro ⟨d', h1, h2⟩
          rw [hx] at h1; cases h1; exact absurd h2 he

theorem firstBad_mem {env : Env} {w : World} {l : List Hash} {h : Hash} (hb : firstBad env w l = some h) :
    h ∈ l ∧ ¬ Readable env w h := by
  induction l with
  | nil => simp [firstBad] at hb
  | cons x l ih =>
    unfold firstBad at hb
    have hone := firstBad_none_iff env w [x]
    simp only [firstBad, List.mem_singleton, forall_eq] at hone
    split at hb
    · rename_i e he
      cases hb
      rw [he] at hone
      simp only [reduceCtorEq, false_iff] at hone
      exact ⟨by simp, hone⟩
    · obtain ⟨h1, h2⟩ := ih hb
      exact ⟨by simp [h1], h2⟩

theorem mappedHashes_ok {w : World} {u : String} {hs : List Hash} (h : mappedHashes w u = .ok hs) :
    ∀ x, x ∈ hs ↔ Refers w u x := by
  unfold mappedHashes File.open at h
  cases hm : w.metas.get? u with
  | none => simp [hm, rb] at h
  | some y =>
    cases y with
    | none => simp [hm] at h
    | some m =>
      simp only [hm] at h
      cases h
      intro x
      simp [Refers, hm]

theorem verifyCandidates_ok {order : List Hash → List Hash} (ho : ∀ l, (order l).Perm l) {s : Src} {r : Rev} {l : List Hash}
    (h : verifyCandidates order s r = .ok l) :
    (∀ x, x ∈ l ↔ Refers s.w r.uuid x ∧ ¬ ∃ v, IsVerified s.repo v ∧ Refers s.w v.uuid x) ∧
    ∃ m, s.w.metas.get? r.uuid = some (some m) := by
  unfold verifyCandidates at h
  cases hu : usedChunks s.w ((s.repo.getHistory true true).filter (fun x => decide (x.trust = .verified))) [] with
  | error e => simp [hu] at h
  | ok used =>
    rw [hu] at h
    cases hm : mappedHashes s.w r.uuid with
    | error e => simp [hm] at h
    | ok hs =>
      rw [hm] at h
      cases h
      have h1 := (usedChunks_ok hu).2
      refine ⟨?_, ?_⟩
      · intro x
        rw [(ho _).mem_iff, List.mem_filter, List.mem_dedup, mappedHashes_ok hm]
        simp only [decide_eq_true_eq, h1, List.not_mem_nil, false_or, and_congr_right_iff]
        intro _
        rw [not_iff_not]
        constructor
        · rintro ⟨v, hv, m, m1, m2⟩
          rw [List.mem_filter, mem_getHistory] at hv
          exact ⟨v, ⟨hv.1.1, hv.1.2.2, hv.1.2.1, by simpa using hv.2⟩, m, m1, m2⟩
        · rintro ⟨v, hv, m, m1, m2⟩
          refine ⟨v, ?_, m, m1, m2⟩
          rw [List.mem_filter, mem_getHistory]
          exact ⟨⟨hv.mem, hv.complete, hv.loc⟩, by simp [hv.trust]⟩
      · unfold mappedHashes File.open at hm
        cases hx : s.w.metas.get? r.uuid with
        | none => simp [hx, rb] at hm
        | some y =>
          cases y with
          | none => simp [hx] at hm
          | some m => exact ⟨m, rfl⟩

/-- **C19** Verifying a local revision that can be opened: if every chunk of it is readable with the recorded hash or belongs to
a revision already verified, it is stored as verified; otherwise its metadata is removed.
No other outcome is possible. -/
theorem C19_verified_or_removed_partial (env : Env) (order : List Hash → List Hash) (ho : ∀ l, (order l).Perm l) (s : Src) (r : Rev)
    (hl : r.server = "") (hok : (Src.verify env order s r).1 = .ok ()) :
    ((∀ h, Refers s.w r.uuid h → Readable env s.w h ∨ ∃ v, IsVerified s.repo v ∧ Refers s.w v.uuid h) →
      onDisk (Src.verify env order s r).2.repo.files r.uuid = some { r with trust := .verified }) ∧
    (¬ (∀ h, Refers s.w r.uuid h → Readable env s.w h ∨ ∃ v, IsVerified s.repo v ∧ Refers s.w v.uuid h) →
      onDisk (Src.verify env order s r).2.repo.files r.uuid = none) := by
  unfold Src.verify Src.verifyMark at *
  cases hc : verifyCandidates order s r with
  | error e => simp [hc] at hok
  | ok cand =>
    rw [hc] at hok
    obtain ⟨h1, _⟩ := verifyCandidates_ok ho hc
    dsimp only at hok ⊢
    cases hb : firstBad env s.w cand with
    | none =>
      rw [hb] at hok
      dsimp only at hok ⊢
      rw [if_neg (by simp [hl])]
      dsimp only
      rw [gc_repo]
      have hgood := (firstBad_none_iff env s.w cand).1 hb
      refine ⟨fun _ => ?_, fun hn => absurd ?_ hn⟩
      · dsimp only
        rw [store_files, if_pos rfl]
      · intro h hh
        by_cases hv : ∃ v, IsVerified s.repo v ∧ Refers s.w v.uuid h
        · exact .inr hv
        · exact .inl (hgood h ((h1 h).2 ⟨hh, hv⟩))
    | some x =>
      dsimp only
      rw [gc_repo]
      obtain ⟨b1, b2⟩ := firstBad_mem hb
      obtain ⟨b3, b4⟩ := (h1 x).1 b1
      refine ⟨fun ha => ?_, fun _ => ?_⟩
      · rcases ha x b3 with h | h
        · exact absurd h b2
        · exact absurd h b4
      · dsimp only
        rw [remove_local hl, drop_files, if_pos rfl]

/-- **C19** Verification keeps every chunk of every verified revision, whatever its outcome. -/
theorem C19_verified_kept_partial (env : Env) (order : List Hash → List Hash) (ho : ∀ l, (order l).Perm l) (s : Src)
    (hn : (s.repo.history.map Rev.uuid).Nodup) (r : Rev) (hr : r ∈ s.repo.history)
    (v : Rev) (hv : IsVerified s.repo v) (h : Hash) (hh : Refers s.w v.uuid h) :
    (Src.verify env order s r).2.w.chunks.get? h = s.w.chunks.get? h := by
  have hgc : ∀ s' : Src, v ∈ s'.repo.history → s'.w.metas = s.w.metas → s'.gc.2.w.chunks.get? h = s'.w.chunks.get? h := by
    intro s' hm he
    unfold Src.gc
    cases hu : usedChunks s'.w s'.repo.localHistory [] with
    | error e => rfl
    | ok used =>
      have h2 : h ∈ used := by
        rw [(usedChunks_ok hu).2]
        obtain ⟨m, m1, m2⟩ := hh
        exact .inr ⟨v, mem_localHistory.2 ⟨hm, hv.loc⟩, m, by rw [he]; exact m1, m2⟩
      show (s'.w.purge used).chunks.get? h = _
      rw [purge_chunks, if_pos h2]
  unfold Src.verify Src.verifyMark
  cases hc : verifyCandidates order s r with
  | error e => rfl
  | ok cand =>
    obtain ⟨h1, _⟩ := verifyCandidates_ok ho hc
    dsimp only
    cases hb : firstBad env s.w cand with
    | none =>
      dsimp only
      by_cases hs : r.server = ""
      · rw [if_neg (by simp [hs])]
        dsimp only
        refine (hgc ⟨s.repo.store { r with trust := .verified }, s.w⟩ ?_ rfl).trans rfl
        dsimp only
        by_cases hvr : v.uuid = r.uuid
        · have := eq_of_uuid hn hv.mem hr hvr
          subst this
          have e : ({ v with trust := .verified } : Rev) = v := by
            have := hv.trust
            cases v; simp_all
          rw [e]
          show v ∈ (Repo.assign s.repo v).history
          simp only [Repo.assign, List.mem_map]
          exact ⟨v, hv.mem, by simp⟩
        · show v ∈ (Repo.assign s.repo { r with trust := .verified }).history
          simp only [Repo.assign, List.mem_map]
          exact ⟨v, hv.mem, by simp [hvr]⟩
      · rw [if_pos hs]
    | some x =>
      dsimp only
      obtain ⟨b1, b2⟩ := firstBad_mem hb
      obtain ⟨b3, b4⟩ := (h1 x).1 b1
      have hne : h ≠ x := by
        rintro rfl
        exact b4 ⟨v, hv, hh⟩
      have hvr : v.uuid ≠ r.uuid := by
        intro he
        exact b4 ⟨v, hv, by rw [he]; exact b3⟩
      refine (hgc ⟨s.repo.remove r, { s.w with chunks := s.w.chunks.erase x }⟩ ?_ rfl).trans ?_
      rotate_left
      · show (s.w.chunks.erase x).get? h = _
        rw [Dict.get?_erase, if_neg hne]
      · dsimp only
        unfold Repo.remove
        split
        · simp only [Repo.store, Repo.assign, Repo.writeInfo, List.mem_map]
          exact ⟨v, hv.mem, by simp [hvr]⟩
        · simp only [Repo.drop, List.mem_filter]
          exact ⟨hv.mem, by simp [hvr]⟩

/-- The two revisions of `exSecond`; the chunk they share has become unreadable. -/
def exCorrupt : Sys :=
  { exSecond with src := { exSecond.src with w := { exSecond.src.w with
      chunks := exSecond.src.w.chunks.set (Test.hash [0, 0, 0, 0]) none } } }

/-- The hypotheses of the theorems above hold: verifying "b" in the intact repository succeeds. -/
example : (Src.verify Test.env id exSecond.connect.src
      (finished (idealRbd [] []) (newRev "b" 20 {"daily"}))).1 = .ok () ∧
    ((onDisk (Src.verify Test.env id exSecond.connect.src
      (finished (idealRbd [] []) (newRev "b" 20 {"daily"}))).2.repo.files "b").map Rev.trust) = some .verified := by
  decide +kernel

/-- **C19** is false of the code: verifying one revision deletes a damaged chunk, and the other revision that uses it stays
trusted. -/
theorem C19_false_trusted_loses_chunk : ∃ (s : Src) (a b : Rev) (h : Hash),
    a ∈ s.repo.history ∧ b ∈ s.repo.history ∧ a ≠ b ∧ Sync s.repo ∧
    (Src.verify Test.env id s a).1 = .ok () ∧
    onDisk (Src.verify Test.env id s a).2.repo.files b.uuid = some b ∧ b.trust = .trusted ∧ b.clean = true ∧
    Refers (Src.verify Test.env id s a).2.w b.uuid h ∧
    s.w.chunks.has h = true ∧ (Src.verify Test.env id s a).2.w.chunks.has h = false := by
  refine ⟨exCorrupt.connect.src, finished (idealRbd [] []) (newRev "a" 10 {"daily"}),
    finished (idealRbd [] []) (newRev "b" 20 {"daily"}), Test.hash [0, 0, 0, 0], by decide +kernel, by decide +kernel,
    by decide +kernel, Sync.scan ?_, by decide +kernel, by decide +kernel, by decide +kernel, by decide +kernel,
    ?_, by decide +kernel, by decide +kernel⟩
  · exact ((Good.initial (env := Test.env) exNew_initial).steps (Test.collFree _) exSecond_steps (fun _ h => h)).disk.named
  · exact ⟨⟨[(0, Test.hash [0, 0, 0, 0]), (1, Test.hash [2, 2, 2, 2])], 8⟩, by decide +kernel, by decide +kernel⟩

/-! ### C15 -/

/-- **C15** (`_partial`: what holds if the flag is set) With the flag for forced writes set, a chunk that is written for the
first time in this process is written to its file whatever was there before. -/
theorem C15_forced_write_partial (env : Env) (w : World) (c : Chunk) (d : Bytes) (hf : w.force = true) (hc : c.clean = false)
    (hd : c.data = some d) (hs : env.H d ∉ w.seen) :
    ∃ c' w', c.flush env w = .ok (some (env.H d), c', w') ∧ w'.chunks.get? (env.H d) = some (some d) := by
  unfold Chunk.flush
  rw [if_neg (by simp [hc]), hd]
  simp only [hs, hf, true_or, if_true, if_false]
  exact ⟨_, _, rfl, by simp⟩

example : ∃ (w : World) (c : Chunk) (d : Bytes), w.force = true ∧ c.clean = false ∧ c.data = some d ∧ Test.env.H d ∉ w.seen ∧
    w.chunks.get? (Test.env.H d) = some none :=
  ⟨{ exCorrupt.connect.src.w with force := true }, { Chunk.new none with data := some [0, 0, 0, 0], clean := false }, [0, 0, 0, 0],
    rfl, rfl, rfl, by decide +kernel, by decide +kernel⟩

/-- `exCorrupt` after `backy distrust` of all local revisions. -/
def exDistrusted : Sys :=
  { exCorrupt with src := { exCorrupt.connect.src with
      repo := (exCorrupt.connect.src.repo.distrust exCorrupt.connect.src.repo.localHistory).2 } }

/-- **C15** is false of the code: all revisions are distrusted and a chunk file is damaged.  The next backup, even a full one,
does not rewrite the chunk; it reports success, and its revision cannot be restored. -/
theorem C15_false_not_rewritten : ∃ (s : Sys) (o : Rbd) (h : Hash),
    (∀ u ∈ s.src.repo.files.keys, (onDisk s.src.repo.files u).map Rev.trust = some .distrusted) ∧
    ("a" ∈ s.src.repo.files.keys ∧ "b" ∈ s.src.repo.files.keys) ∧
    s.src.w.chunks.get? h = some none ∧
    Works o s.ceph.snaps "c" s.ceph.image Test.env.cs ∧
    (runBackup Test.env true o "c" 30 ∅ s.connect).1 = 0 ∧
    (onDisk (runBackup Test.env true o "c" 30 ∅ s.connect).2.src.repo.files "c").map Rev.clean = some true ∧
    Refers (runBackup Test.env true o "c" 30 ∅ s.connect).2.src.w "c" h ∧
    (runBackup Test.env true o "c" 30 ∅ s.connect).2.src.w.chunks.has h = false ∧
    (restore Test.env (runBackup Test.env true o "c" 30 ∅ s.connect).2.connect.src.w (newRev "c" 30 ∅) none).1 =
      .error .backend :=
  ⟨exDistrusted, idealRbd [0, 0, 0, 0, 2, 2, 2, 2] [1], Test.hash [0, 0, 0, 0], by decide +kernel, by decide +kernel,
    by decide +kernel, by
      have h : exDistrusted.ceph.image = [0, 0, 0, 0, 2, 2, 2, 2] := by decide +kernel
      rw [h]
      exact idealRbd_works [0, 0, 0, 0, 2, 2, 2, 2] (by decide) [1] 1 4 (validSample (by decide)) _ _,
    by decide +kernel, by decide +kernel,
    ⟨⟨[(0, Test.hash [0, 0, 0, 0]), (1, Test.hash [2, 2, 2, 2])], 8⟩, by decide +kernel, by decide +kernel⟩,
    by decide +kernel, by decide +kernel⟩

/-- C19_verified_or_removed_partial: the second revision is verified. -/
example := C19_verified_or_removed_partial Test.env id (fun _ => List.Perm.refl _) exSecond.connect.src
  (finished (idealRbd [] []) (newRev "b" 20 {"daily"})) (by decide +kernel) (by decide +kernel)

/-- C19_verified_kept_partial: the damaged store, with the second revision verified and the first one being examined. -/
example (h : Hash) (hh : Refers (exCorrupt.connect.src.w) "b" h) :=
  C19_verified_kept_partial Test.env id (fun _ => List.Perm.refl _)
    { exCorrupt.connect.src with repo := { exCorrupt.connect.src.repo with history :=
        [finished (idealRbd [] []) (newRev "a" 10 {"daily"}),
         { finished (idealRbd [] []) (newRev "b" 20 {"daily"}) with trust := .verified }] } }
    (by decide +kernel) (finished (idealRbd [] []) (newRev "a" 10 {"daily"})) (by decide +kernel)
    { finished (idealRbd [] []) (newRev "b" 20 {"daily"}) with trust := .verified } ⟨by decide +kernel, by decide +kernel, by decide +kernel, rfl⟩
    h hh

/-- C15_forced_write_partial: the damaged chunk is written again. -/
example := C15_forced_write_partial Test.env { exCorrupt.connect.src.w with force := true }
  { Chunk.new none with data := some [0, 0, 0, 0], clean := false } [0, 0, 0, 0] rfl rfl rfl (by decide +kernel)

end Verif.Backup
